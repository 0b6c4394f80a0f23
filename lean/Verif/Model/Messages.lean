import Verif.Model.Sparse

/-!
# Messages and memory figures

Models the functions of src/Log.cpp: `Msg::print`, `Msg::setVerbosity`, `bytesToString` and
`currentRSS`. Standard output is a list of lines. A number printed with three decimals is kept as
its number of thousandths; the digits themselves are left out.
-/

namespace F3D
namespace Messages

/-! ## Messages -/

/-- `Msg::Severity`, export/Log.h:65-68. -/
inductive Severity
  | message
  | warning
deriving DecidableEq

/-- The verbosity `g_verbosity` (src/Log.cpp:66) and the lines sent to standard output so far. -/
structure Console where
  verbosity : Int
  lines : List String
deriving DecidableEq

/-- State at the start of the process, src/Log.cpp:66. -/
def Console.start : Console := ⟨1, []⟩

/-- `print(severity, message)`, src/Log.cpp:70-86. -/
def print (c : Console) (s : Severity) (m : String) : Console :=
  if c.verbosity < 1 then c
  else
    let prefixed := match s with
      | .warning => "WARNING: " ++ m
      | .message => m
    { c with lines := c.lines ++ [prefixed] }

/-- `setVerbosity(level)`, src/Log.cpp:90-93. -/
def setVerbosity (c : Console) (level : Int) : Console := { c with verbosity := level }

/-- A call of one of the two functions. -/
inductive Call
  | print (s : Severity) (m : String)
  | setVerbosity (level : Int)
deriving DecidableEq

/-- One call. -/
def step (c : Console) : Call → Console
  | .print s m => print c s m
  | .setVerbosity l => setVerbosity c l

/-! ## Sizes as text -/

/-- The four units of `bytesToString`, src/Log.cpp:115-131. -/
inductive SizeUnit
  | b
  | kb
  | mb
  | gb
deriving DecidableEq

/-- The text made by `bytesToString`: a leading minus, the number shown in thousandths, the unit. -/
structure SizeText where
  negative : Bool
  thousandths : Nat
  unit : SizeUnit
deriving DecidableEq

/-- Division rounded to nearest, ties to even: how a binary number is printed with a fixed number
of decimals (`ss.precision(3)` and `std::ios::fixed`, src/Log.cpp:106-107). -/
def roundEven (n d : Nat) : Nat :=
  if 2 * (n % d) < d then n / d
  else if d < 2 * (n % d) then n / d + 1
  else if n / d % 2 = 0 then n / d else n / d + 1

/-- `ss << bytes / static_cast<float>(unit)`, src/Log.cpp:121,125,129: the count is converted to
`float`, the division by a power of two is exact, the quotient is printed with three decimals. -/
def quotient (m unit : Nat) : Nat := roundEven (toFloat32 m * 1000) unit

/-- `bytesToString(bytes)`, src/Log.cpp:101-132. The argument is a value of `int64_t`; `none` is
the undefined negation of the least one (line 112). -/
def bytesToString (bytes : Int) : Option SizeText :=
  if bytes = -2 ^ 63 then none
  else
    let neg : Bool := decide (bytes < 0)
    let m := (if bytes < 0 then -bytes else bytes).toNat
    if m < 1024 then some ⟨neg, 1000 * m, .b⟩
    else if m < 1024 * 1024 then some ⟨neg, quotient m 1024, .kb⟩
    else if m < 1024 * 1024 * 1024 then some ⟨neg, quotient m (1024 * 1024), .mb⟩
    else some ⟨neg, quotient m (1024 * 1024 * 1024), .gb⟩

/-! ## Resident memory -/

/-- What one `>>` finds in `/proc/self/stat`: a text that is not a number, or a number. -/
inductive Token
  | text (t : List Char)
  | number (n : Int)
deriving DecidableEq

/-- White space, as skipped by `>>`. -/
def white (c : Char) : Bool := c == ' ' || c == '\t' || c == '\n' || c == '\x0b' || c == '\x0c' || c == '\r'

/-- The texts found by repeated `>>`; `cur` is the text read so far, backwards. -/
def wordsFrom : List Char → List Char → List (List Char)
  | cur, [] => if cur.isEmpty then [] else [cur.reverse]
  | cur, c :: cs =>
    if white c then
      if cur.isEmpty then wordsFrom [] cs else cur.reverse :: wordsFrom [] cs
    else wordsFrom (c :: cur) cs

/-- The file `/proc/self/stat` as `>>` sees it: the process number, the name in parentheses, the
state and the remaining numbers, the first of which is field 4. The kernel writes the name as it
is, with the white space in it. -/
def statFile (pid : Int) (name state : List Char) (fields : List Int) : List Token :=
  .number pid :: ((wordsFrom [] ('(' :: name ++ [')'])).map Token.text ++
    .text state :: fields.map Token.number)

/-- `currentRSS()` on Linux, src/Log.cpp:136-177: twenty-two texts are skipped (lines 155-158), the
next two are read as numbers (line 159) and the second is multiplied by the size of a page (line
169). If the second is not a number it becomes zero; if the first is not one, or the file ends
before, the variable `rss` keeps its indeterminate value and the result is undefined (`none`). -/
def currentRSS (page : Int) (stat : List Token) : Option Int :=
  match stat.drop 22 with
  | .number _ :: .number r :: _ => some (r * page)
  | .number _ :: .text _ :: _ => some 0
  | _ => none

end Messages
end F3D

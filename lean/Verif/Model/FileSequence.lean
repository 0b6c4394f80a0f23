/-!
# File sequences

Models src/FileSequence.cpp. Strings are lists of characters. `npos` is `none`; the subtractions that wrap around
to `npos` and beyond are modelled by `back`.
-/

namespace F3D
namespace FileSequence

abbrev Str := List Char

/-- `k_numbers`, src/FileSequence.cpp:69. -/
def numbers : Str := "0123456789".toList

/-- `k_seqMarks`, src/FileSequence.cpp:70. -/
def marks : Str := "#@".toList

/-- `s.find_first_of(set, from)`. -/
def findFirstOf (set s : Str) (start : Nat) : Option Nat :=
  ((s.drop start).findIdx? (· ∈ set)).map (· + start)

/-- `s.find_last_not_of(set, pos)`: the last position at most `pos` (`none`: anywhere). -/
def findLastNotOf (set s : Str) (pos : Option Nat) : Option Nat :=
  let t := match pos with
    | none => s
    | some p => s.take (p + 1)
  (t.reverse.findIdx? (fun c => !(decide (c ∈ set)))).map (t.length - 1 - ·)

/-- `i - k` for a `size_t`: wraps to a position beyond every string. -/
def back (i k : Nat) : Option Nat := if k ≤ i then some (i - k) else none

/-- `s.substr(pos, n)` for `pos` at most the length. -/
def substr (s : Str) (pos n : Nat) : Str := (s.drop pos).take n

def isSpace (c : Char) : Bool := c ∈ [' ', '\t', '\n', '\x0b', '\x0c', '\r']

/-- `atoi`: white space, a sign, digits; undefined (`none`) if the value is no `int`. -/
def atoi (s : Str) : Option Int :=
  let t := s.dropWhile isSpace
  let v : Int := match t with
    | '-' :: ds => - (Nat.ofDigitChars 10 (ds.takeWhile Char.isDigit) 0 : Int)
    | '+' :: ds => (Nat.ofDigitChars 10 (ds.takeWhile Char.isDigit) 0 : Int)
    | ds => (Nat.ofDigitChars 10 (ds.takeWhile Char.isDigit) 0 : Int)
  if -2 ^ 31 ≤ v ∧ v < 2 ^ 31 then some v else none

/-- `operator<<(int)`. -/
def showInt (i : Int) : Str := if i < 0 then '-' :: Nat.toDigits 10 i.natAbs else Nat.toDigits 10 i.toNat

/-- `for (int i = start; i <= end; ++i)`, src/FileSequence.cpp:145-149: with `end` the largest `int` the loop runs
into overflow, which is undefined (`none`). -/
def frames (base suffix : Str) (start stop : Int) : Option (List Str) :=
  if stop = 2 ^ 31 - 1 then none
  else some ((List.range (stop - start + 1).toNat).map fun (k : Nat) => base ++ showInt (start + k) ++ suffix)

/-- The frame numbers and the loop, src/FileSequence.cpp:132-149. -/
def numbered (base suffix : Str) (start stop : Option Int) : Option (List Str) :=
  match start, stop with
  | some a, some b => frames base suffix a b
  | _, _ => none

/-- The constructor `FileSequence(sequence)`, src/FileSequence.cpp:62-150; `fileExists` is a parameter. The result
is `m_filenames`; `none` is undefined behaviour. -/
def expand (fileExists : Str → Bool) (sequence : Str) : Option (List Str) :=
  if fileExists sequence then some [sequence]
  else
    match findFirstOf marks sequence 0 with
    | none => some []
    | some seqMarkIdx =>
      if (findFirstOf marks sequence (seqMarkIdx + 1)).isSome then some []
      else
        match findLastNotOf numbers sequence (back seqMarkIdx 1) with
        | none => some []
        | some e =>
          let seqEndIdx := e + 1
          if sequence[seqEndIdx - 1]? ≠ some '-' then some []
          else
            match findLastNotOf numbers sequence (back seqEndIdx 2) with
            | none => some []
            | some b =>
              let seqStartIdx := b + 1
              numbered (substr sequence 0 seqStartIdx) (sequence.drop (seqMarkIdx + 1))
                (atoi (substr sequence seqStartIdx (seqEndIdx - 1))) (atoi (substr sequence seqEndIdx seqMarkIdx))

end FileSequence
end F3D

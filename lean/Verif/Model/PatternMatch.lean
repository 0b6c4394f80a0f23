/-!
# Name patterns

Models src/PatternMatch.cpp. `fnmatch` with `FNM_NOESCAPE` is a parameter `glob pattern string`. Strings hold no
NUL character, so that `c_str()` loses nothing.
-/

namespace F3D
namespace PatternMatch

abbrev Str := List Char

/-- The tokenizer of `split`, src/PatternMatch.cpp:83-97: `boost::char_separator` with its default arguments drops
the separators and the empty tokens. `cur` is the token being collected. -/
def tokens (seps : Str) : Str → Str → List Str
  | cur, [] => if cur = [] then [] else [cur]
  | cur, c :: cs =>
    if c ∈ seps then (if cur = [] then tokens seps [] cs else cur :: tokens seps [] cs)
    else tokens seps (cur ++ [c]) cs

/-- `split(s, separatorChars)`, src/PatternMatch.cpp:83-97. -/
def splitAt (seps s : Str) : List Str := tokens seps [] s

/-- `split(s)`, src/PatternMatch.cpp:75-79: the separator is the space. -/
def split (s : Str) : List Str := splitAt [' '] s

/-- `isExclusion` and the stripped pattern, src/PatternMatch.cpp:121-123 and 185-187, for a non-empty pattern. -/
def parse : Str → Bool × Str
  | [] => (false, [])
  | c :: cs => if c = '-' ∨ c = '^' then (true, cs) else (false, c :: cs)

/-- The string matched against, src/PatternMatch.cpp:129-135. -/
def subject (name attr pattern : Str) : Str :=
  if ':' ∈ pattern then name ++ [':'] ++ attr else attr

/-- The loop of `match`, src/PatternMatch.cpp:114-146, over the two flags. -/
def loop (hit : Str → Bool) : Bool × Bool → List Str → Bool × Bool
  | st, [] => st
  | (fm, fe), i :: is =>
    if i = [] then loop hit (fm, fe) is
    else
      let p := parse i
      if hit p.2 then (if p.1 then loop hit (fm, true) is else loop hit (true, fe) is)
      else loop hit (fm, fe) is

/-- `match(name, attribute, patterns, flags)`, src/PatternMatch.cpp:104-147. `flags` is the enumeration of
export/PatternMatch.h:64-67, whose only bit is `MatchEmptyPattern`. -/
def matchPair (glob : Str → Str → Bool) (name attr : Str) (patterns : List Str) (flags : Nat) : Bool :=
  if patterns.length = 0 then decide (flags ≠ 0)
  else
    let r := loop (fun p => glob p (subject name attr p)) (false, false) patterns
    r.1 && !r.2

/-- `match(name, attribute, patterns, flags)` with the patterns in one string, src/PatternMatch.cpp:151-157. -/
def matchPairString (glob : Str → Str → Bool) (name attr patterns : Str) (flags : Nat) : Bool :=
  matchPair glob name attr (split patterns) flags

/-- `pattern.substr(pos + 1)` if there is a `:`, src/PatternMatch.cpp:189-194. -/
def secondHalf : Str → Str
  | [] => []
  | c :: cs => if c = ':' then cs else secondHalf cs

/-- `match(attribute, patterns, flags)`, src/PatternMatch.cpp:169-207. -/
def matchAttribute (glob : Str → Str → Bool) (attr : Str) (patterns : List Str) (flags : Nat) : Bool :=
  if patterns.length = 0 then decide (flags ≠ 0)
  else
    let r := loop (fun p => glob (if ':' ∈ p then secondHalf p else p) attr) (false, false) patterns
    r.1 && !r.2

/-- The overload taking one string, src/PatternMatch.cpp:211-216. -/
def matchAttributeString (glob : Str → Str → Bool) (attr patterns : Str) (flags : Nat) : Bool :=
  matchAttribute glob attr (split patterns) flags

end PatternMatch
end F3D

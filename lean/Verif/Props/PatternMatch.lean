import Verif.Model.PatternMatch

/-!
# Pattern matching (C58)
-/

namespace F3D.Props
open F3D.PatternMatch

/-! ## Specification -/

/-- An exclusion pattern with this body. -/
def Excludes (p body : List Char) : Prop := p = '-' :: body ∨ p = '^' :: body

/-- An inclusion pattern: not empty, and not an exclusion. -/
def Includes (p : List Char) : Prop := p ≠ [] ∧ ∀ b, ¬ Excludes p b

/-- What a pattern body says about a field: with a colon it speaks of `name:attribute`, otherwise of the attribute
alone. -/
def Selects (glob : List Char → List Char → Bool) (name attr body : List Char) : Prop :=
  (':' ∈ body ∧ glob body (name ++ ":".toList ++ attr) = true) ∨ (':' ∉ body ∧ glob body attr = true)

/-- What a pattern body says about an attribute when no name is known: a part before the first colon is
ignored. -/
def SelectsAttribute (glob : List Char → List Char → Bool) (attr body : List Char) : Prop :=
  (∃ l r, body = l ++ ':' :: r ∧ ':' ∉ l ∧ glob r attr = true) ∨ (':' ∉ body ∧ glob body attr = true)

/-! ## Lemmas -/

theorem parse_exclusion (p : List Char) (b : List Char) : Excludes p b ↔ p ≠ [] ∧ parse p = (true, b) := by
  cases p with
  | nil => simp [Excludes]
  | cons c cs =>
    simp only [Excludes, parse, List.cons.injEq]
    by_cases h : c = '-' ∨ c = '^'
    · simp only [if_pos h, ne_eq, reduceCtorEq, not_false_eq_true, true_and, Prod.mk.injEq]
      grind
    · simp only [if_neg h]
      grind

theorem parse_inclusion (p : List Char) : Includes p ↔ p ≠ [] ∧ parse p = (false, p) := by
  cases p with
  | nil => simp [Includes]
  | cons c cs =>
    simp only [Includes, Excludes, parse, List.cons.injEq]
    by_cases h : c = '-' ∨ c = '^'
    · simp only [if_pos h]; grind
    · simp only [if_neg h]; grind

theorem loop_spec (hit : List Char → Bool) : ∀ (ps : List (List Char)) (fm fe : Bool),
    ((loop hit (fm, fe) ps).1 = true ↔ fm = true ∨ ∃ p ∈ ps, Includes p ∧ hit p = true) ∧
      ((loop hit (fm, fe) ps).2 = true ↔ fe = true ∨ ∃ p ∈ ps, ∃ b, Excludes p b ∧ hit b = true)
  | [], fm, fe => by simp [loop]
  | p :: ps, fm, fe => by
    have hx : ∀ b, Excludes p b ↔ p ≠ [] ∧ parse p = (true, b) := parse_exclusion p
    have hi := parse_inclusion p
    simp only [loop]
    by_cases h0 : p = []
    · rw [if_pos h0]
      have := loop_spec hit ps fm fe
      simp only [List.mem_cons, exists_eq_or_imp, hx, hi]
      simpa [h0] using this
    · rw [if_neg h0]
      simp only [List.mem_cons, exists_eq_or_imp, hx, hi]
      rcases hp : parse p with ⟨e, b⟩
      have hb : e = false → b = p := by
        cases p with
        | nil => exact absurd rfl h0
        | cons c cs => simp only [parse] at hp; split at hp <;> simp_all
      cases e
      · have := hb rfl; subst this
        by_cases hh : hit b = true
        · have := loop_spec hit ps true fe
          simp_all
        · have := loop_spec hit ps fm fe
          simp_all
      · by_cases hh : hit b = true
        · have := loop_spec hit ps fm true
          simp_all
        · have := loop_spec hit ps fm fe
          simp_all

theorem secondHalf_spec (s : List Char) (h : ':' ∈ s) : ∃ l, s = l ++ ':' :: secondHalf s ∧ ':' ∉ l := by
  induction s with
  | nil => simp at h
  | cons c cs ih =>
    by_cases hc : c = ':'
    · exact ⟨[], by simp [secondHalf, hc], by simp⟩
    · have : ':' ∈ cs := by
        rcases List.mem_cons.1 h with h | h
        · exact absurd h.symm hc
        · exact h
      obtain ⟨l, hl, hn⟩ := ih this
      refine ⟨c :: l, ?_, by simp [hn, Ne.symm hc]⟩
      simp only [secondHalf, if_neg hc, List.cons_append, ← hl]

theorem split_unique (l l' r r' : List Char) (hl : ':' ∉ l) (hl' : ':' ∉ l') (h : l ++ ':' :: r = l' ++ ':' :: r') :
    r = r' := by
  induction l generalizing l' with
  | nil =>
    cases l' with
    | nil => simpa using h
    | cons c cs => simp only [List.nil_append, List.cons_append, List.cons.injEq] at h; simp [← h.1] at hl'
  | cons c cs ih =>
    cases l' with
    | nil => simp only [List.nil_append, List.cons_append, List.cons.injEq] at h; simp [h.1] at hl
    | cons d ds =>
      simp only [List.cons_append, List.cons.injEq] at h
      exact ih ds (by simp at hl; exact hl.2) (by simp at hl'; exact hl'.2) h.2

theorem selects_hit (glob : List Char → List Char → Bool) (name attr body : List Char) :
    glob body (subject name attr body) = true ↔ Selects glob name attr body := by
  by_cases h : ':' ∈ body <;> simp [subject, Selects, h]

theorem selectsAttribute_hit (glob : List Char → List Char → Bool) (attr body : List Char) :
    glob (if ':' ∈ body then secondHalf body else body) attr = true ↔ SelectsAttribute glob attr body := by
  by_cases h : ':' ∈ body
  · obtain ⟨l, hl, hn⟩ := secondHalf_spec body h
    simp only [h, if_true, SelectsAttribute, not_true_eq_false, false_and, or_false]
    constructor
    · exact fun hg => ⟨l, _, hl, hn, hg⟩
    · rintro ⟨l', r', hb, hn', hg⟩
      rw [split_unique l l' (secondHalf body) r' hn hn' (hl.symm.trans hb)]; exact hg
  · simp only [h, if_false, SelectsAttribute, not_false_eq_true, true_and]
    constructor
    · exact fun hg => Or.inr hg
    · rintro (⟨l, r, hb, _, _⟩ | hg)
      · exact absurd (by rw [hb]; simp) h
      · exact hg

/-! ## C58 -/

/-- **A field matches** exactly when some inclusion pattern selects it and no exclusion pattern does. -/
theorem C58_match_iff (glob : List Char → List Char → Bool) (name attr : List Char) (ps : List (List Char))
    (flags : Nat) (h : ps ≠ []) :
    matchPair glob name attr ps flags = true ↔
      (∃ p ∈ ps, Includes p ∧ Selects glob name attr p) ∧
        ¬ ∃ p ∈ ps, ∃ b, Excludes p b ∧ Selects glob name attr b := by
  have hl : ps.length ≠ 0 := by simpa using h
  obtain ⟨h1, h2⟩ := loop_spec (fun p => glob p (subject name attr p)) ps false false
  simp only [matchPair, if_neg hl, Bool.and_eq_true, h1, Bool.not_eq_true', ← Bool.not_eq_true, h2, selects_hit,
    Bool.false_eq_true, false_or]

/-- The same for attribute-only matching. -/
theorem C58_match_attribute_iff (glob : List Char → List Char → Bool) (attr : List Char)
    (ps : List (List Char)) (flags : Nat) (h : ps ≠ []) :
    matchAttribute glob attr ps flags = true ↔
      (∃ p ∈ ps, Includes p ∧ SelectsAttribute glob attr p) ∧
        ¬ ∃ p ∈ ps, ∃ b, Excludes p b ∧ SelectsAttribute glob attr b := by
  have hl : ps.length ≠ 0 := by simpa using h
  obtain ⟨h1, h2⟩ := loop_spec (fun p => glob (if ':' ∈ p then secondHalf p else p) attr) ps false false
  simp only [matchAttribute, if_neg hl, Bool.and_eq_true, h1, Bool.not_eq_true', ← Bool.not_eq_true, h2,
    selectsAttribute_hit, Bool.false_eq_true, false_or]

/-- **An empty list** matches exactly when the flag is given. -/
theorem C58_empty_list (glob : List Char → List Char → Bool) (name attr : List Char) :
    matchPair glob name attr [] 0 = false ∧ matchPair glob name attr [] 1 = true ∧
      matchAttribute glob attr [] 0 = false ∧ matchAttribute glob attr [] 1 = true := by
  refine ⟨rfl, rfl, rfl, rfl⟩

/-- **Order, repetition and empty patterns** make no difference, as long as both lists hold a pattern. -/
theorem C58_order_irrelevant (glob : List Char → List Char → Bool) (name attr : List Char)
    (ps qs : List (List Char)) (f g : Nat) (hp : ps ≠ []) (hq : qs ≠ [])
    (h : ∀ p, p ≠ [] → (p ∈ ps ↔ p ∈ qs)) :
    matchPair glob name attr ps f = matchPair glob name attr qs g ∧
      matchAttribute glob attr ps f = matchAttribute glob attr qs g := by
  have key1 : ∀ S : List Char → Prop, (∃ p ∈ ps, Includes p ∧ S p) ↔ ∃ p ∈ qs, Includes p ∧ S p := by
    intro S
    constructor <;> rintro ⟨p, hm, hi, hs⟩
    · exact ⟨p, (h p hi.1).1 hm, hi, hs⟩
    · exact ⟨p, (h p hi.1).2 hm, hi, hs⟩
  have ne : ∀ p b, Excludes p b → p ≠ [] := by rintro p b (rfl | rfl) <;> simp
  have key2 : ∀ S : List Char → Prop, (∃ p ∈ ps, ∃ b, Excludes p b ∧ S b) ↔ ∃ p ∈ qs, ∃ b, Excludes p b ∧ S b := by
    intro S
    constructor <;> rintro ⟨p, hm, b, hi, hs⟩
    · exact ⟨p, (h p (ne p b hi)).1 hm, b, hi, hs⟩
    · exact ⟨p, (h p (ne p b hi)).2 hm, b, hi, hs⟩
  constructor
  · apply Bool.eq_iff_iff.2
    rw [C58_match_iff glob name attr ps f hp, C58_match_iff glob name attr qs g hq, key1, key2]
  · apply Bool.eq_iff_iff.2
    rw [C58_match_attribute_iff glob attr ps f hp, C58_match_attribute_iff glob attr qs g hq, key1, key2]

/-- The proviso matters: an empty pattern makes the list non-empty, so the flag is not looked at. -/
theorem C58_one_empty_pattern (glob : List Char → List Char → Bool) (name attr : List Char) (f : Nat) :
    matchPair glob name attr [[]] f = false := rfl

theorem tokens_append (seps : List Char) (c : Char) (hc : c ∈ seps) (b : List Char) : ∀ (a cur : List Char),
    tokens seps cur (a ++ c :: b) = tokens seps cur a ++ tokens seps [] b
  | [], cur => by
    by_cases h : cur = [] <;> simp [tokens, hc, h]
  | x :: xs, cur => by
    simp only [List.cons_append, tokens]
    by_cases hx : x ∈ seps
    · by_cases h : cur = [] <;> simp [hx, h, tokens_append seps c hc b xs]
    · simp [hx, tokens_append seps c hc b xs]

theorem tokens_word (seps : List Char) : ∀ (a cur : List Char), (∀ c ∈ a, c ∉ seps) → cur ++ a ≠ [] →
    tokens seps cur a = [cur ++ a]
  | [], cur, _, h => by simp_all [tokens]
  | x :: xs, cur, hs, h => by
    have hx := hs x (by simp)
    rw [tokens, if_neg hx, tokens_word seps xs (cur ++ [x]) (fun c hc => hs c (by simp [hc])) (by simp)]
    simp

/-- **Splitting a pattern string**: a space separates, a word without spaces stands for itself, and no spaces
produce empty patterns. These three determine the result for every string. -/
theorem C58_split (a b w : List Char) (hw : ' ' ∉ w) (hn : w ≠ []) :
    split [] = [] ∧ split w = [w] ∧ split (a ++ ' ' :: b) = split a ++ split b := by
  refine ⟨rfl, ?_, ?_⟩
  · exact tokens_word [' '] w [] (by intro c hc; simp; rintro rfl; exact hw hc) (by simpa using hn)
  · exact tokens_append [' '] ' ' (by simp) b a []

theorem tokens_ne (seps : List Char) : ∀ (a cur : List Char), ∀ t ∈ tokens seps cur a, t ≠ []
  | [], cur, t, h => by
    by_cases hc : cur = [] <;> simp_all [tokens]
  | x :: xs, cur, t, h => by
    simp only [tokens] at h
    by_cases hx : x ∈ seps
    · by_cases hc : cur = []
      · simp only [hx, hc, if_true] at h; exact tokens_ne seps xs [] t h
      · simp only [hx, hc, if_true, if_false, List.mem_cons] at h
        rcases h with rfl | h
        · exact hc
        · exact tokens_ne seps xs [] t h
    · simp only [hx, if_false] at h; exact tokens_ne seps xs _ t h

/-- Matching against one string is matching against its words; a string of spaces is an empty list. -/
theorem C58_string_form (glob : List Char → List Char → Bool) (name attr s : List Char) (f : Nat) :
    matchPairString glob name attr s f = matchPair glob name attr (split s) f ∧
      matchAttributeString glob attr s f = matchAttribute glob attr (split s) f ∧
      (∀ p ∈ split s, p ≠ []) ∧ ((∀ c ∈ s, c = ' ') → matchPairString glob name attr s f = decide (f ≠ 0)) := by
  refine ⟨rfl, rfl, tokens_ne _ _ _, ?_⟩
  intro h
  have : ∀ s : List Char, (∀ c ∈ s, c = ' ') → tokens [' '] [] s = [] := by
    intro s
    induction s with
    | nil => intro _; rfl
    | cons c cs ih => intro h; simp [tokens, h c (by simp)]; exact ih fun d hd => h d (by simp [hd])
  simp [matchPairString, split, splitAt, this s h, matchPair]

/-! ## Non-vacuity -/

/-- Equality as a matcher. -/
def plainGlob (p s : List Char) : Bool := p = s

example : matchPair plainGlob "char".toList "density".toList ["density".toList, "^temp".toList] 0 = true := by decide
example : matchPair plainGlob "char".toList "density".toList ["-char:density".toList, "density".toList] 0 = false := by
  decide
example : matchAttribute plainGlob "density".toList ["other:density".toList] 0 = true := by decide
example : split "a  ^b:c ".toList = ["a".toList, "^b:c".toList] := by decide
/-- The header promises comma separation; a comma does not separate. -/
example : split "a,b".toList = ["a,b".toList] := by decide

end F3D.Props

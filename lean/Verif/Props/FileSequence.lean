import Verif.Model.FileSequence

/-!
# File sequences (C57)
-/

namespace F3D.Props
open F3D.FileSequence

/-! ## Specification -/

/-- A sequence mark. -/
def IsMark (c : Char) : Prop := c = '#' ∨ c = '@'

/-- Decimal numeral of a natural number. -/
def numeral (n : Nat) : List Char := (toString n).toList

/-- The file names with the numbers `a`, `a + 1`, ..., `b`. -/
def frameNames (base suffix : List Char) (a b : Nat) : List (List Char) :=
  (List.range (b + 1 - a)).map fun k => base ++ numeral (a + k) ++ suffix

/-! ## Lemmas -/

theorem mem_numbers (c : Char) : c ∈ numbers ↔ c.isDigit = true := by
  constructor
  · have : ∀ c ∈ numbers, c.isDigit = true := by decide
    exact this c
  · intro h
    simp only [Char.isDigit, Bool.and_eq_true, decide_eq_true_eq] at h
    have h1 : 48 ≤ c.toNat := by simpa [UInt32.le_iff_toNat_le] using h.1
    have h2 : c.toNat ≤ 57 := by simpa [UInt32.le_iff_toNat_le] using h.2
    have : c = Char.ofNat c.toNat := by simp
    rw [this]
    generalize c.toNat = n at h1 h2
    have : n = 48 ∨ n = 49 ∨ n = 50 ∨ n = 51 ∨ n = 52 ∨ n = 53 ∨ n = 54 ∨ n = 55 ∨ n = 56 ∨ n = 57 := by omega
    rcases this with rfl | rfl | rfl | rfl | rfl | rfl | rfl | rfl | rfl | rfl <;> decide

theorem mem_marks (c : Char) : c ∈ marks ↔ IsMark c := by simp [marks, IsMark]

theorem digit_not_mark (c : Char) (h : c.isDigit = true) : c ∉ marks := by
  rw [mem_marks]; rintro (rfl | rfl) <;> revert h <;> decide

theorem findFirstOf_hit (set a b : List Char) (m : Char) (ha : ∀ c ∈ a, c ∉ set) (hm : m ∈ set) :
    findFirstOf set (a ++ m :: b) 0 = some a.length := by
  have h0 : a.findIdx? (fun c => decide (c ∈ set)) = none := by
    simp [List.findIdx?_eq_none_iff]; exact ha
  simp [findFirstOf, List.findIdx?_append, h0, List.findIdx?_cons, hm]

theorem findFirstOf_none (set a : List Char) (n : Nat) (ha : ∀ c ∈ a.drop n, c ∉ set) : findFirstOf set a n = none := by
  simp [findFirstOf, List.findIdx?_eq_none_iff]; exact ha

theorem findLastNotOf_hit (set a d t : List Char) (c : Char) (hd : ∀ x ∈ d, x ∈ set) (hc : c ∉ set) :
    findLastNotOf set (a ++ c :: d ++ t) (back (a.length + 1 + d.length) 1) = some a.length := by
  have ht : (a ++ c :: d ++ t).take (a.length + 1 + d.length - 1 + 1) = a ++ c :: d := by
    rw [List.take_left']
    simp <;> omega
  have h0 : d.reverse.findIdx? (fun c => !decide (c ∈ set)) = none := by
    simp [List.findIdx?_eq_none_iff]; exact hd
  have hb : back (a.length + 1 + d.length) 1 = some (a.length + 1 + d.length - 1) := by simp [back] <;> omega
  simp only [findLastNotOf, hb, ht]
  simp [List.findIdx?_append, List.findIdx?_cons, h0, hc] <;> omega

theorem findLastNotOf_none (set d t : List Char) (hd : ∀ x ∈ d, x ∈ set) (hne : d ≠ []) :
    findLastNotOf set (d ++ t) (back d.length 1) = none := by
  have hl : d.length ≠ 0 := by simpa using hne
  have hb : back d.length 1 = some (d.length - 1) := by simp [back] <;> omega
  have ht : (d ++ t).take (d.length - 1 + 1) = d := by rw [List.take_left']; omega
  have h0 : d.reverse.findIdx? (fun c => !decide (c ∈ set)) = none := by
    simp [List.findIdx?_eq_none_iff]; exact hd
  simp only [findLastNotOf, hb, ht, h0, Option.map_none]

theorem digit_not_space (c : Char) (h : c.isDigit = true) : isSpace c = false := by
  cases hs : isSpace c with
  | false => rfl
  | true =>
    simp [isSpace] at hs
    rcases hs with rfl | rfl | rfl | rfl | rfl | rfl <;> revert h <;> decide

theorem takeWhile_digits (d r : List Char) (hd : ∀ c ∈ d, c.isDigit = true)
    (hr : ∀ c, r.head? = some c → c.isDigit = false) : (d ++ r).takeWhile Char.isDigit = d := by
  rw [List.takeWhile_append_of_pos hd]
  cases r with
  | nil => simp
  | cons c cs => simp [hr c rfl]

theorem atoi_digits (d r : List Char) (hne : d ≠ []) (hd : ∀ c ∈ d, c.isDigit = true)
    (hr : ∀ c, r.head? = some c → c.isDigit = false) (hv : Nat.ofDigitChars 10 d 0 < 2 ^ 31) :
    atoi (d ++ r) = some (Nat.ofDigitChars 10 d 0 : Int) := by
  obtain ⟨c, cs, rfl⟩ := List.exists_cons_of_ne_nil hne
  have hc := hd c (by simp)
  have hw : (c :: cs ++ r).dropWhile isSpace = c :: cs ++ r := by
    simp [digit_not_space c hc]
  have ht := takeWhile_digits (c :: cs) r hd hr
  simp only [atoi, hw]
  have hm : c ≠ '-' := by rintro rfl; revert hc; decide
  have hp : c ≠ '+' := by rintro rfl; revert hc; decide
  simp only [List.cons_append] at ht ⊢
  split
  · exact absurd (by simp_all) hm
  · exact absurd (by simp_all) hp
  · rw [ht, if_pos]; constructor <;> omega

theorem atoi_minus (d r : List Char) (hd : ∀ c ∈ d, c.isDigit = true)
    (hr : ∀ c, r.head? = some c → c.isDigit = false) (hv : Nat.ofDigitChars 10 d 0 < 2 ^ 31) :
    atoi ('-' :: d ++ r) = some (-(Nat.ofDigitChars 10 d 0 : Int)) := by
  have ht := takeWhile_digits d r hd hr
  have hw : ('-' :: d ++ r).dropWhile isSpace = '-' :: d ++ r := by
    simp [isSpace]
  simp only [atoi, hw]
  simp only [List.cons_append] at ht ⊢
  rw [ht, if_pos]; constructor <;> omega

theorem mark_not_digit (m : Char) (h : IsMark m) : m.isDigit = false := by rcases h with rfl | rfl <;> decide

theorem head_take {α : Type} (l : List α) (n : Nat) (x : α) (h : (l.take n).head? = some x) : l.head? = some x := by
  cases l with
  | nil => simp at h
  | cons a as => cases n <;> simp_all

theorem take_split {α : Type} (a b : List α) (n : Nat) (h : a.length ≤ n) :
    (a ++ b).take n = a ++ b.take (n - a.length) := by
  rw [List.take_append, List.take_of_length_le h]

theorem expand_range (fileExists : List Char → Bool) (base ds es suffix : List Char) (m : Char)
    (hbase : ∃ b c, base = b ++ [c] ∧ c.isDigit = false) (hbm : ∀ c ∈ base, ¬ IsMark c) (hsm : ∀ c ∈ suffix, ¬ IsMark c)
    (hm : IsMark m) (hds : ∀ c ∈ ds, c.isDigit = true) (hes : ∀ c ∈ es, c.isDigit = true)
    (hx : fileExists (base ++ ds ++ '-' :: es ++ m :: suffix) = false) :
    expand fileExists (base ++ ds ++ '-' :: es ++ m :: suffix) =
      numbered base suffix (atoi ((ds ++ '-' :: es ++ m :: suffix).take (base.length + ds.length)))
        (atoi ((es ++ m :: suffix).take (base.length + ds.length + 1 + es.length))) := by
  obtain ⟨b, c, rfl, hc⟩ := hbase
  have hdash : '-' ∉ marks := by decide
  have h1 : findFirstOf marks (b ++ [c] ++ ds ++ '-' :: es ++ m :: suffix) 0 =
      some ((b ++ [c]).length + ds.length + 1 + es.length) := by
    rw [findFirstOf_hit marks (b ++ [c] ++ ds ++ '-' :: es) suffix m ?_ ((mem_marks m).2 hm)]
    · simp <;> omega
    · intro x hx
      simp only [List.mem_append, List.mem_cons] at hx
      rcases hx with ((hx | hx) | rfl | hx)
      · rw [mem_marks]; exact hbm x (by simpa using hx)
      · exact digit_not_mark x (hds x hx)
      · exact hdash
      · exact digit_not_mark x (hes x hx)
  have h2 : findFirstOf marks (b ++ [c] ++ ds ++ '-' :: es ++ m :: suffix)
      ((b ++ [c]).length + ds.length + 1 + es.length + 1) = none := by
    apply findFirstOf_none
    intro x hx
    rw [show b ++ [c] ++ ds ++ '-' :: es ++ m :: suffix = (b ++ [c] ++ ds ++ '-' :: es ++ [m]) ++ suffix by simp,
      List.drop_left' (by simp <;> omega)] at hx
    rw [mem_marks]; exact hsm x hx
  have h3 : findLastNotOf numbers (b ++ [c] ++ ds ++ '-' :: es ++ m :: suffix)
      (back ((b ++ [c]).length + ds.length + 1 + es.length) 1) = some ((b ++ [c]).length + ds.length) := by
    have := findLastNotOf_hit numbers (b ++ [c] ++ ds) es (m :: suffix) '-' (fun x hx => (mem_numbers x).2 (hes x hx))
      (by decide)
    rw [List.length_append] at this
    exact this
  have h4 : findLastNotOf numbers (b ++ [c] ++ ds ++ '-' :: es ++ m :: suffix)
      (back ((b ++ [c]).length + ds.length + 1) 2) = some b.length := by
    have := findLastNotOf_hit numbers b ds ('-' :: es ++ m :: suffix) c (fun x hx => (mem_numbers x).2 (hds x hx))
      (by rw [mem_numbers, hc]; simp)
    have e : back ((b ++ [c]).length + ds.length + 1) 2 = back (b.length + 1 + ds.length) 1 := by
      simp [back] <;> omega
    rw [e, ← this]; simp
  have h5 : (b ++ [c] ++ ds ++ '-' :: es ++ m :: suffix)[(b ++ [c]).length + ds.length + 1 - 1]? = some '-' := by
    rw [show b ++ [c] ++ ds ++ '-' :: es ++ m :: suffix = (b ++ [c] ++ ds) ++ ('-' :: es ++ m :: suffix) by simp,
      List.getElem?_append_right (by simp <;> omega)]
    rw [show (b ++ [c]).length + ds.length + 1 - 1 - (b ++ [c] ++ ds).length = 0 by simp <;> omega]
    rfl
  have s1 : substr (b ++ [c] ++ ds ++ '-' :: es ++ m :: suffix) (b.length + 1) ((b ++ [c]).length + ds.length + 1 - 1) =
      (ds ++ '-' :: es ++ m :: suffix).take ((b ++ [c]).length + ds.length) := by
    rw [substr, show b ++ [c] ++ ds ++ '-' :: es ++ m :: suffix = (b ++ [c]) ++ (ds ++ '-' :: es ++ m :: suffix) by simp,
      List.drop_left' (by simp <;> omega)]
    simp
  have s2 : substr (b ++ [c] ++ ds ++ '-' :: es ++ m :: suffix) ((b ++ [c]).length + ds.length + 1)
      ((b ++ [c]).length + ds.length + 1 + es.length) =
      (es ++ m :: suffix).take ((b ++ [c]).length + ds.length + 1 + es.length) := by
    rw [substr, show b ++ [c] ++ ds ++ '-' :: es ++ m :: suffix = (b ++ [c] ++ ds ++ ['-']) ++ (es ++ m :: suffix) by simp,
      List.drop_left' (by simp <;> omega)]
  have s3 : substr (b ++ [c] ++ ds ++ '-' :: es ++ m :: suffix) 0 (b.length + 1) = b ++ [c] := by
    rw [substr, show b ++ [c] ++ ds ++ '-' :: es ++ m :: suffix = (b ++ [c]) ++ (ds ++ '-' :: es ++ m :: suffix) by simp]
    simp only [List.drop_zero]
    rw [List.take_left' (by simp)]
  have s4 : (b ++ [c] ++ ds ++ '-' :: es ++ m :: suffix).drop ((b ++ [c]).length + ds.length + 1 + es.length + 1) = suffix := by
    rw [show b ++ [c] ++ ds ++ '-' :: es ++ m :: suffix = (b ++ [c] ++ ds ++ '-' :: es ++ [m]) ++ suffix by simp,
      List.drop_left' (by simp <;> omega)]
  simp only [expand, hx, h1, h2, h3, h4, h5, s1, s2, s3, s4, Option.isSome_none, Bool.false_eq_true, if_false,
    ne_eq, not_true_eq_false]

theorem showInt_nat (n : Nat) : showInt (n : Int) = numeral n := by
  simp only [showInt, numeral]
  rw [if_neg (by omega)]
  simp

/-! ## C57 -/

/-- **A range expands to its frames**: for every base name that does not end in a digit, frame numbers given by any
digit strings (leading zeros allowed), either mark and every suffix, the result is the names with the numbers from
first to last, in order, without padding. -/
theorem C57_range_of_digits (fileExists : List Char → Bool) (base ds es suffix : List Char) (m : Char)
    (hbase : ∃ b c, base = b ++ [c] ∧ c.isDigit = false) (hbm : ∀ c ∈ base, ¬ IsMark c) (hsm : ∀ c ∈ suffix, ¬ IsMark c)
    (hm : IsMark m) (hd0 : ds ≠ []) (he0 : es ≠ []) (hds : ∀ c ∈ ds, c.isDigit = true)
    (hes : ∀ c ∈ es, c.isDigit = true) (ha : Nat.ofDigitChars 10 ds 0 < 2 ^ 31 - 1)
    (hb : Nat.ofDigitChars 10 es 0 < 2 ^ 31 - 1)
    (hx : fileExists (base ++ ds ++ "-".toList ++ es ++ [m] ++ suffix) = false) :
    expand fileExists (base ++ ds ++ "-".toList ++ es ++ [m] ++ suffix) =
      some (frameNames base suffix (Nat.ofDigitChars 10 ds 0) (Nat.ofDigitChars 10 es 0)) := by
  have e : base ++ ds ++ "-".toList ++ es ++ [m] ++ suffix = base ++ ds ++ '-' :: es ++ m :: suffix := by simp
  rw [e] at hx ⊢
  rw [expand_range fileExists base ds es suffix m hbase hbm hsm hm hds hes hx]
  have a1 : atoi ((ds ++ '-' :: es ++ m :: suffix).take (base.length + ds.length)) =
      some (Nat.ofDigitChars 10 ds 0 : Int) := by
    rw [List.append_assoc, take_split ds _ _ (by omega)]
    apply atoi_digits _ _ hd0 hds _ (by omega)
    intro c hc
    have := head_take _ _ _ hc
    simp at this; subst this; decide
  have a2 : atoi ((es ++ m :: suffix).take (base.length + ds.length + 1 + es.length)) =
      some (Nat.ofDigitChars 10 es 0 : Int) := by
    rw [take_split es _ _ (by omega)]
    apply atoi_digits _ _ he0 hes _ (by omega)
    intro c hc
    have := head_take _ _ _ hc
    simp at this; subst this; exact mark_not_digit m hm
  rw [a1, a2]
  simp only [numbered, frames, frameNames]
  rw [if_neg (by omega)]
  congr 1
  rw [show ((Nat.ofDigitChars 10 es 0 : Int) - (Nat.ofDigitChars 10 ds 0 : Int) + 1).toNat =
    Nat.ofDigitChars 10 es 0 + 1 - Nat.ofDigitChars 10 ds 0 by omega]
  apply List.map_congr_left
  intro k _
  rw [← showInt_nat]; simp

/-- The same with ordinary numerals. -/
theorem C57_range (fileExists : List Char → Bool) (base suffix : List Char) (a b : Nat) (m : Char)
    (hbase : ∃ p c, base = p ++ [c] ∧ c.isDigit = false) (hbm : ∀ c ∈ base, ¬ IsMark c) (hsm : ∀ c ∈ suffix, ¬ IsMark c)
    (hm : IsMark m) (ha : a < 2 ^ 31 - 1) (hb : b < 2 ^ 31 - 1)
    (hx : fileExists (base ++ numeral a ++ "-".toList ++ numeral b ++ [m] ++ suffix) = false) :
    expand fileExists (base ++ numeral a ++ "-".toList ++ numeral b ++ [m] ++ suffix) =
      some (frameNames base suffix a b) := by
  have hn : ∀ n, numeral n = Nat.toDigits 10 n := by intro n; simp [numeral]
  have hd : ∀ n, ∀ c ∈ numeral n, c.isDigit = true := by
    intro n c hc; rw [hn] at hc; exact Nat.isDigit_of_mem_toDigits (by decide) (by decide) hc
  have hne : ∀ n, numeral n ≠ [] := by intro n; rw [hn]; exact Nat.toDigits_ne_nil
  have hv : ∀ n, Nat.ofDigitChars 10 (numeral n) 0 = n := by intro n; rw [hn]; simp
  have := C57_range_of_digits fileExists base (numeral a) (numeral b) suffix m hbase hbm hsm hm (hne a) (hne b) (hd a)
    (hd b) (by rw [hv]; exact ha) (by rw [hv]; exact hb) hx
  rwa [hv, hv] at this

/-- **An existing file** of the literal name stands alone. -/
theorem C57_existing_file (fileExists : List Char → Bool) (s : List Char) (h : fileExists s = true) :
    expand fileExists s = some [s] := by simp [expand, h]

/-- **No mark, or several**: no files. -/
theorem C57_marks (fileExists : List Char → Bool) (s : List Char) (h : fileExists s = false)
    (hm : (∀ c ∈ s, ¬ IsMark c) ∨ ∃ a b c m n, s = a ++ [m] ++ b ++ [n] ++ c ∧ IsMark m ∧ IsMark n) :
    expand fileExists s = some [] := by
  rcases hm with hm | ⟨a, b, c, m, n, rfl, h1, h2⟩
  · have := findFirstOf_none marks s 0 (by simpa [mem_marks] using hm)
    simp [expand, h, this]
  · simp only [expand, h, Bool.false_eq_true, if_false]
    cases hf : findFirstOf marks (a ++ [m] ++ b ++ [n] ++ c) 0 with
    | none => rfl
    | some i =>
      have hi : i ≤ a.length := by
        simp only [findFirstOf, List.drop_zero, Nat.add_zero, Option.map_id'] at hf
        rw [List.findIdx?_eq_some_iff_getElem] at hf
        obtain ⟨hl, _, hmin⟩ := hf
        rcases Nat.lt_or_ge a.length i with hlt | hge
        · have := hmin a.length hlt
          simp [mem_marks, h1] at this
        · exact hge
      have : (findFirstOf marks (a ++ [m] ++ b ++ [n] ++ c) (i + 1)).isSome = true := by
        rw [findFirstOf, Option.isSome_map, List.findIdx?_isSome]
        rw [List.any_eq_true]
        refine ⟨n, ?_, by simpa [mem_marks] using h2⟩
        rw [List.mem_drop_iff_getElem]
        refine ⟨a.length + 1 + b.length - (i + 1), by simp; omega, ?_⟩
        have : i + 1 + (a.length + 1 + b.length - (i + 1)) = a.length + 1 + b.length := by omega
        simp only [this]
        rw [List.getElem_append_left (by simp <;> omega), List.getElem_append_right (by simp <;> omega)]
        simp
      simp only [this, if_true]

/-- **Not a range**: the number before the mark follows something other than a dash, or is the whole beginning of
the name: no files. -/
theorem C57_not_a_range (fileExists : List Char → Bool) (base es suffix : List Char) (m : Char)
    (hm : IsMark m) (hes : ∀ c ∈ es, c.isDigit = true) (hsm : ∀ c ∈ suffix, ¬ IsMark c)
    (hbase : (base = [] ∧ es ≠ []) ∨
      ∃ b c, base = b ++ [c] ∧ c.isDigit = false ∧ c ≠ '-' ∧ ∀ c ∈ base, ¬ IsMark c)
    (hx : fileExists (base ++ es ++ [m] ++ suffix) = false) :
    expand fileExists (base ++ es ++ [m] ++ suffix) = some [] := by
  have hb : ∀ c ∈ base, ¬ IsMark c := by rcases hbase with ⟨rfl, _⟩ | ⟨b, c, _, _, _, h⟩; exact (by simp); exact h
  have h1 : findFirstOf marks (base ++ es ++ [m] ++ suffix) 0 = some (base.length + es.length) := by
    rw [show base ++ es ++ [m] ++ suffix = (base ++ es) ++ m :: suffix by simp,
      findFirstOf_hit marks (base ++ es) suffix m ?_ ((mem_marks m).2 hm)]
    · simp
    · intro x hx
      rcases List.mem_append.1 hx with hx | hx
      · rw [mem_marks]; exact hb x hx
      · exact digit_not_mark x (hes x hx)
  have h2 : findFirstOf marks (base ++ es ++ [m] ++ suffix) (base.length + es.length + 1) = none := by
    apply findFirstOf_none
    intro x hx
    rw [List.drop_left' (by simp <;> omega)] at hx
    rw [mem_marks]; exact hsm x hx
  simp only [expand, hx, h1, h2, Option.isSome_none, Bool.false_eq_true, if_false]
  rcases hbase with ⟨rfl, hne⟩ | ⟨b, c, rfl, hc, hd, _⟩
  · have := findLastNotOf_none numbers es ([m] ++ suffix) (fun x hx => (mem_numbers x).2 (hes x hx)) hne
    simp only [List.nil_append, List.length_nil, Nat.zero_add, List.append_assoc] at this ⊢
    rw [this]
  · have := findLastNotOf_hit numbers b es (m :: suffix) c (fun x hx => (mem_numbers x).2 (hes x hx))
      (by rw [mem_numbers, hc]; simp)
    rw [show b ++ [c] ++ es ++ [m] ++ suffix = b ++ c :: es ++ m :: suffix by simp,
      show (b ++ [c]).length + es.length = b.length + 1 + es.length by simp, this]
    simp [hd]

/-- **A dash that belongs to the name** is taken for the dash of a range: `name-N` with a mark expands to the
`2 N + 1` names with the numbers from `-N` to `N`, for every name at least as long as the dash and the digits. -/
theorem C57_dash_in_name (fileExists : List Char → Bool) (base suffix : List Char) (n : Nat) (m : Char)
    (hbase : ∃ p c, base = p ++ [c] ∧ c.isDigit = false) (hbm : ∀ c ∈ base, ¬ IsMark c) (hsm : ∀ c ∈ suffix, ¬ IsMark c)
    (hm : IsMark m) (hn : n < 2 ^ 31 - 1) (hl : (numeral n).length + 1 ≤ base.length)
    (hx : fileExists (base ++ "-".toList ++ numeral n ++ [m] ++ suffix) = false) :
    expand fileExists (base ++ "-".toList ++ numeral n ++ [m] ++ suffix) =
      some ((List.range (2 * n + 1)).map fun (k : Nat) => base ++ showInt (k - n) ++ suffix) := by
  have hnn : numeral n = Nat.toDigits 10 n := by simp [numeral]
  have hd : ∀ c ∈ numeral n, c.isDigit = true := by
    intro c hc; rw [hnn] at hc; exact Nat.isDigit_of_mem_toDigits (by decide) (by decide) hc
  have hne : numeral n ≠ [] := by rw [hnn]; exact Nat.toDigits_ne_nil
  have hv : Nat.ofDigitChars 10 (numeral n) 0 = n := by rw [hnn]; simp
  have e : base ++ "-".toList ++ numeral n ++ [m] ++ suffix = base ++ [] ++ '-' :: numeral n ++ m :: suffix := by simp
  rw [e] at hx ⊢
  rw [expand_range fileExists base [] (numeral n) suffix m hbase hbm hsm hm (by simp) hd hx]
  have a1 : atoi (([] ++ '-' :: numeral n ++ m :: suffix).take (base.length + ([] : List Char).length)) = some (-(n : Int)) := by
    rw [List.nil_append, take_split ('-' :: numeral n) _ _ (by simp <;> omega)]
    have := atoi_minus (numeral n) ((m :: suffix).take (base.length + ([] : List Char).length - ('-' :: numeral n).length)) hd
      (by intro c hc
          have := head_take _ _ _ hc
          simp at this; subst this; exact mark_not_digit m hm) (by rw [hv]; omega)
    rw [hv] at this
    exact this
  have a2 : atoi ((numeral n ++ m :: suffix).take (base.length + ([] : List Char).length + 1 + (numeral n).length)) =
      some (n : Int) := by
    rw [take_split (numeral n) _ _ (by omega)]
    have := atoi_digits (numeral n) ((m :: suffix).take
        (base.length + ([] : List Char).length + 1 + (numeral n).length - (numeral n).length)) hne hd
      (by intro c hc
          have := head_take _ _ _ hc
          simp at this; subst this; exact mark_not_digit m hm) (by rw [hv]; omega)
    rw [hv] at this
    exact this
  rw [a1, a2]
  simp only [numbered, frames]
  rw [if_neg (by omega)]
  rw [show ((n : Int) - -(n : Int) + 1).toNat = 2 * n + 1 by omega]
  congr 1
  apply List.map_congr_left
  intro k _
  rw [show -(n : Int) + (k : Int) = (k : Int) - n by omega]

/-! ## Non-vacuity -/

def noFiles (_ : List Char) : Bool := false

example : expand noFiles "myfile.1-3@.f3d".toList =
    some ["myfile.1.f3d".toList, "myfile.2.f3d".toList, "myfile.3.f3d".toList] := by decide
example : expand noFiles "a1-2#@".toList = some [] := by decide
example : expand noFiles "shot-1@.f3d".toList =
    some ["shot-1.f3d".toList, "shot0.f3d".toList, "shot1.f3d".toList] := by decide
/-- A dash at the start of the string is worse: the search wraps around and the names keep the pattern. -/
example : expand noFiles "-1@".toList = some ["-1@0".toList, "-1@1".toList] := by decide
/-- A mark at the very start makes the search wrap around to the end of the string. -/
example : expand noFiles "#0-3".toList = some ["#00-3".toList] := by decide

end F3D.Props

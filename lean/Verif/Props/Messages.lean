import Verif.Proofs.Messages
import Mathlib.Data.List.Induction
import Mathlib.Data.Rat.Floor
import Mathlib.Algebra.Order.Field.Basic

/-!
# C97: messages and memory figures

* The lines on the console after any calls are those printed while the last level set was at least
  one.
* The text made for a number of bytes is within half a unit of the last digit and one part in
  `2 ^ 24` of the number; larger numbers never give smaller texts; the unit fits.
* The resident memory reported is the one the kernel states exactly if the name of the process has
  no white space.
-/

namespace F3D.Props

open F3D.Messages

/-! ## Messages -/

/-- The level in force after some calls: the last one set, or one. -/
def levelAfter (calls : List Call) : Int :=
  match calls.reverse.findSome? (fun | .setVerbosity l => some l | .print _ _ => none) with
  | some l => l
  | none => 1

/-- What a call shows if it comes after the calls `before`. -/
def shownBy (before : List Call) : Call → List String
  | .setVerbosity _ => []
  | .print .message m => if 1 ≤ levelAfter before then [m] else []
  | .print .warning m => if 1 ≤ levelAfter before then ["WARNING: " ++ m] else []

theorem console_after (calls : List Call) :
    (calls.foldl step Console.start).verbosity = levelAfter calls := by
  induction calls using List.reverseRecOn with
  | nil => rfl
  | append_singleton cs c ih =>
    rw [List.foldl_append]
    simp only [List.foldl_cons, List.foldl_nil]
    cases c with
    | print s m =>
      have : levelAfter (cs ++ [Call.print s m]) = levelAfter cs := by simp [levelAfter]
      rw [this, ← ih]
      simp only [step, Messages.print]
      split <;> rfl
    | setVerbosity l => simp [levelAfter, step, setVerbosity]

/-- The console shows what was printed while the level in force was at least one, in order, with
the warnings marked, and nothing else. -/
theorem C97_console (calls : List Call) :
    (calls.foldl step Console.start).lines =
      (List.range calls.length).flatMap (fun i =>
        (calls[i]?.map (shownBy (calls.take i))).getD []) := by
  induction calls using List.reverseRecOn with
  | nil => rfl
  | append_singleton cs c ih =>
    have hl := console_after cs
    have hrest : (List.range cs.length).flatMap (fun i =>
        ((cs ++ [c])[i]?.map (shownBy ((cs ++ [c]).take i))).getD []) =
        (List.range cs.length).flatMap (fun i => (cs[i]?.map (shownBy (cs.take i))).getD []) := by
      apply List.flatMap_congr
      intro i hi
      have hi := List.mem_range.1 hi
      rw [List.getElem?_append_left hi, List.take_append_of_le_length (Nat.le_of_lt hi)]
    rw [List.foldl_append, List.length_append, List.length_singleton, List.range_succ,
      List.flatMap_append, hrest, ← ih]
    have e1 : (cs ++ [c])[cs.length]? = some c := by simp
    have e2 : (cs ++ [c]).take cs.length = cs := by simp
    simp only [List.foldl_cons, List.foldl_nil, List.flatMap_cons, List.flatMap_nil, e1, e2,
      Option.map_some, Option.getD_some, List.append_nil]
    cases c with
    | setVerbosity l => simp [step, setVerbosity, shownBy]
    | print s m =>
      simp only [step, Messages.print]
      rw [hl]
      by_cases h : levelAfter cs < 1
      · rw [if_pos h]
        cases s <;> simp [shownBy, show ¬ (1 ≤ levelAfter cs) from by omega]
      · rw [if_neg h]
        cases s <;> simp [shownBy, show 1 ≤ levelAfter cs from by omega]

example : ([Call.print .warning "a", .setVerbosity 0, .print .message "b", .setVerbosity 3,
    .print .message "c"].foldl step Console.start).lines = ["WARNING: a", "c"] := by decide

/-! ## Sizes -/

/-- The number of bytes in a unit. -/
def unitBytes : SizeUnit → Nat
  | .b => 1
  | .kb => 2 ^ 10
  | .mb => 2 ^ 20
  | .gb => 2 ^ 30

/-- The number of bytes a text states. -/
def stated (t : SizeText) : Rat :=
  (if t.negative then -1 else 1) * ((t.thousandths : Rat) / 1000) * (unitBytes t.unit : Rat)

/-- A value of `int64_t` other than the least. -/
def Negatable (b : Int) : Prop := -2 ^ 63 < b ∧ b < 2 ^ 63

/-- The unit that fits a number of bytes. -/
def Fits (u : SizeUnit) (m : Nat) : Prop :=
  (u = .b ∨ unitBytes u ≤ m) ∧ (u = .gb ∨ m < 1024 * unitBytes u)

theorem text_of {b : Int} (h : Negatable b) :
    ∃ t, bytesToString b = some t ∧ (t.negative = true ↔ b < 0) ∧ Fits t.unit b.natAbs ∧
      ((t.unit = .b ∧ t.thousandths = 1000 * b.natAbs) ∨
        (t.unit ≠ .b ∧ t.thousandths = quotient b.natAbs (unitBytes t.unit))) := by
  have hm : (if b < 0 then -b else b).toNat = b.natAbs := by split <;> omega
  unfold bytesToString
  rw [if_neg (by have := h.1; omega)]
  simp only [hm]
  by_cases h1 : b.natAbs < 1024
  · rw [if_pos h1]
    exact ⟨_, rfl, by simp, ⟨Or.inl rfl, Or.inr (by simpa [unitBytes] using h1)⟩, Or.inl ⟨rfl, rfl⟩⟩
  · rw [if_neg h1]
    by_cases h2 : b.natAbs < 1024 * 1024
    · rw [if_pos h2]
      exact ⟨_, rfl, by simp, ⟨Or.inr (by simp only [unitBytes]; omega),
        Or.inr (by simp only [unitBytes]; omega)⟩, Or.inr ⟨by simp, rfl⟩⟩
    · rw [if_neg h2]
      by_cases h3 : b.natAbs < 1024 * 1024 * 1024
      · rw [if_pos h3]
        exact ⟨_, rfl, by simp, ⟨Or.inr (by simp only [unitBytes]; omega),
          Or.inr (by simp only [unitBytes]; omega)⟩, Or.inr ⟨by simp, rfl⟩⟩
      · rw [if_neg h3]
        exact ⟨_, rfl, by simp, ⟨Or.inr (by simp only [unitBytes]; omega), Or.inl rfl⟩,
          Or.inr ⟨by simp, rfl⟩⟩

theorem quotient_close (m u : Nat) (hu : 0 < u) :
    |((quotient m u : Rat) / 1000) * u - m| ≤ (u : Rat) / 2000 + (m : Rat) / 2 ^ 24 := by
  obtain ⟨h1, h2⟩ := roundEven_bounds (toFloat32 m * 1000) u hu
  obtain ⟨h3, h4⟩ := toFloat32_close m
  unfold quotient
  generalize roundEven (toFloat32 m * 1000) u = q at *
  generalize toFloat32 m = f at *
  have g1 : 2 * ((f : Rat) * 1000) ≤ 2 * ((q : Rat) * u) + u := by exact_mod_cast h1
  have g2 : 2 * ((q : Rat) * u) ≤ 2 * ((f : Rat) * 1000) + u := by exact_mod_cast h2
  have g3 : (2 : Rat) ^ 24 * m ≤ 2 ^ 24 * f + m := by exact_mod_cast h3
  have g4 : (2 : Rat) ^ 24 * f ≤ 2 ^ 24 * m + m := by exact_mod_cast h4
  rw [abs_le]
  have e : (q : Rat) / 1000 * u = (q : Rat) * u / 1000 := by ring
  rw [e]
  generalize (q : Rat) * u = p at *
  constructor <;> linarith

/-- The text for a number of bytes has its sign, a unit that fits, and states the number up to half
a unit of the third decimal and one part in `2 ^ 24`. -/
theorem C97_size_text {b : Int} (h : Negatable b) :
    ∃ t, bytesToString b = some t ∧ (t.negative = true ↔ b < 0) ∧ Fits t.unit b.natAbs ∧
      |stated t - b| ≤ (unitBytes t.unit : Rat) / 2000 + |(b : Rat)| / 2 ^ 24 := by
  obtain ⟨t, ht, hneg, hfit, hth⟩ := text_of h
  refine ⟨t, ht, hneg, hfit, ?_⟩
  have key : |((t.thousandths : Rat) / 1000) * unitBytes t.unit - (b.natAbs : Rat)| ≤
      (unitBytes t.unit : Rat) / 2000 + (b.natAbs : Rat) / 2 ^ 24 := by
    rcases hth with ⟨hu, hq⟩ | ⟨-, hq⟩
    · rw [hq, hu]
      have : ((1000 * b.natAbs : Nat) : Rat) / 1000 * (unitBytes SizeUnit.b : Nat) - (b.natAbs : Rat) = 0 := by
        simp only [unitBytes]; push_cast; ring
      rw [this, abs_zero]
      positivity
    · rw [hq]
      exact quotient_close _ _ (by cases t.unit <;> simp [unitBytes])
  have hab : (b.natAbs : Rat) = |(b : Rat)| := by
    rw [← Int.cast_abs, Int.abs_eq_natAbs]; rfl
  rw [hab] at key
  by_cases hb : b < 0
  · have hn : t.negative = true := hneg.2 hb
    have hbq : |(b : Rat)| = -b := abs_of_neg (by exact_mod_cast hb)
    unfold stated
    rw [if_pos hn]
    rw [hbq] at key ⊢
    rw [← abs_neg]
    have e : -(-1 * ((t.thousandths : Rat) / 1000) * unitBytes t.unit - b) =
      (t.thousandths : Rat) / 1000 * unitBytes t.unit - -b := by ring
    rw [e]; exact key
  · have hn : ¬ t.negative = true := fun hc => hb (hneg.1 hc)
    have hbq : |(b : Rat)| = b := abs_of_nonneg (by exact_mod_cast (by omega : 0 ≤ b))
    unfold stated
    rw [if_neg hn]
    rw [hbq] at key ⊢
    rw [one_mul]; exact key

/-- Fewer than 1024 bytes are stated exactly. -/
theorem C97_size_exact {b : Int} (h : b.natAbs < 1024) :
    (bytesToString b).map stated = some (b : Rat) := by
  have hneg : Negatable b := ⟨by omega, by omega⟩
  obtain ⟨t, ht, hs, hfit, hth⟩ := text_of hneg
  rw [ht, Option.map_some]
  have hu : t.unit = .b := by
    rcases hfit.1 with hu | hu
    · exact hu
    · cases hq : t.unit <;> simp [hq, unitBytes] at hu ⊢ <;> omega
  have hq : t.thousandths = 1000 * b.natAbs := by
    rcases hth with h | h
    · exact h.2
    · exact absurd hu h.1
  congr 1
  unfold stated
  rw [hu, hq]
  have hab : (b.natAbs : Rat) = |(b : Rat)| := by
    rw [← Int.cast_abs, Int.abs_eq_natAbs]; rfl
  have e : (((1000 * b.natAbs : Nat) : Rat) / 1000) * (unitBytes SizeUnit.b : Nat) = |(b : Rat)| := by
    rw [← hab]; simp only [unitBytes]; push_cast; ring
  rw [mul_assoc, e]
  by_cases hb : b < 0
  · rw [if_pos (hs.2 hb), abs_of_neg (by exact_mod_cast hb)]; ring
  · rw [if_neg (fun hc => hb (hs.1 hc)), abs_of_nonneg (by exact_mod_cast (by omega : 0 ≤ b))]; ring

/-- The number shown is at most 1024.000, and at least 1.000 in the units above the byte. -/
theorem C97_size_digits {b : Int} {t : SizeText} (h : Negatable b) (ht : bytesToString b = some t) :
    (t.unit ≠ .gb → t.thousandths ≤ 1024000) ∧ (t.unit ≠ .b → 1000 ≤ t.thousandths) := by
  obtain ⟨t', ht', -, hfit, hth⟩ := text_of h
  rw [ht] at ht'
  obtain rfl := Option.some.inj ht'
  rcases hth with ⟨hu, hq⟩ | ⟨hne, hq⟩
  · refine ⟨fun _ => ?_, fun hne => absurd hu hne⟩
    rcases hfit.2 with hg | hl
    · rw [hu] at hg; cases hg
    · rw [hu] at hl; simp only [unitBytes] at hl; omega
  · have hub : ∃ k, unitBytes t.unit = 2 ^ k := by
      cases t.unit
      · exact ⟨0, rfl⟩
      · exact ⟨10, rfl⟩
      · exact ⟨20, rfl⟩
      · exact ⟨30, rfl⟩
    obtain ⟨k, hk⟩ := hub
    have hpos : 0 < unitBytes t.unit := by rw [hk]; exact Nat.two_pow_pos k
    constructor
    · intro hg
      have hl := hfit.2.resolve_left hg
      have h1 : toFloat32 b.natAbs ≤ 1024 * unitBytes t.unit := by
        have h2 := toFloat32_mono (Nat.le_of_lt hl)
        have e : 1024 * unitBytes t.unit = 2 ^ (10 + k) := by rw [hk, Nat.pow_add]
        rw [e, toFloat32_two_pow] at h2
        rw [e]; exact h2
      rw [hq]
      unfold quotient
      have h3 := roundEven_mono hpos (show toFloat32 b.natAbs * 1000 ≤ 1024000 * unitBytes t.unit by omega)
      rwa [roundEven_exact _ _ hpos] at h3
    · intro _
      have hl := hfit.1.resolve_left hne
      have h1 : unitBytes t.unit ≤ toFloat32 b.natAbs := by
        have h2 := toFloat32_mono hl
        rw [hk, toFloat32_two_pow] at h2
        rw [hk]; exact h2
      rw [hq]
      unfold quotient
      have h3 := roundEven_mono hpos (show 1000 * unitBytes t.unit ≤ toFloat32 b.natAbs * 1000 by omega)
      rwa [roundEven_exact _ _ hpos] at h3

/-- The order of the units. -/
theorem fits_order {u v : SizeUnit} {m n : Nat} (hu : Fits u m) (hv : Fits v n) (h : m ≤ n) :
    u = v ∨ (u ≠ .gb ∧ v ≠ .b ∧ 1024 * unitBytes u ≤ unitBytes v) := by
  unfold Fits at hu hv
  cases u <;> cases v <;> simp [unitBytes] at hu hv ⊢ <;> omega

/-- A larger number of bytes is never stated as a smaller one. -/
theorem C97_size_order {a b : Int} {s t : SizeText} (ha : 0 ≤ a) (hab : a ≤ b) (hb : Negatable b)
    (hs : bytesToString a = some s) (ht : bytesToString b = some t) : stated s ≤ stated t := by
  have hna : Negatable a := ⟨by omega, by have := hb.2; omega⟩
  have ds := C97_size_digits hna hs
  have dt := C97_size_digits hb ht
  obtain ⟨s', hs', hsn, hsf, hsq⟩ := text_of hna
  rw [hs] at hs'
  obtain rfl := Option.some.inj hs'
  obtain ⟨t', ht', htn, htf, htq⟩ := text_of hb
  rw [ht] at ht'
  obtain rfl := Option.some.inj ht'
  have h1 : ¬ s.negative = true := fun hc => by have := hsn.1 hc; omega
  have h2 : ¬ t.negative = true := fun hc => by have := htn.1 hc; omega
  have hle : a.natAbs ≤ b.natAbs := by omega
  have key : s.thousandths * unitBytes s.unit ≤ t.thousandths * unitBytes t.unit := by
    rcases fits_order hsf htf hle with he | ⟨hg, hbb, hlt⟩
    · rw [he]
      apply Nat.mul_le_mul_right
      rw [he] at hsq
      rcases hsq with ⟨hu, hq⟩ | ⟨hu, hq⟩ <;> rcases htq with ⟨hu', hq'⟩ | ⟨hu', hq'⟩
      · omega
      · exact absurd hu hu'
      · exact absurd hu' hu
      · rw [hq, hq']
        unfold quotient
        refine roundEven_mono (by cases t.unit <;> simp [unitBytes]) ?_
        exact Nat.mul_le_mul_right _ (toFloat32_mono hle)
    · calc s.thousandths * unitBytes s.unit ≤ 1024000 * unitBytes s.unit := Nat.mul_le_mul_right _ (ds.1 hg)
        _ = 1000 * (1024 * unitBytes s.unit) := by ring
        _ ≤ 1000 * unitBytes t.unit := Nat.mul_le_mul_left _ hlt
        _ ≤ t.thousandths * unitBytes t.unit := Nat.mul_le_mul_right _ (dt.2 hbb)
  unfold stated
  rw [if_neg h1, if_neg h2, one_mul, one_mul]
  have kq : (s.thousandths : Rat) * unitBytes s.unit ≤ (t.thousandths : Rat) * unitBytes t.unit := by
    exact_mod_cast key
  have e1 : (s.thousandths : Rat) / 1000 * unitBytes s.unit = (s.thousandths : Rat) * unitBytes s.unit / 1000 := by ring
  have e2 : (t.thousandths : Rat) / 1000 * unitBytes t.unit = (t.thousandths : Rat) * unitBytes t.unit / 1000 := by ring
  rw [e1, e2]
  exact div_le_div_of_nonneg_right kq (by norm_num)

example : bytesToString 1536 = some ⟨false, 1500, .kb⟩ ∧
    bytesToString (-3145728) = some ⟨true, 3000, .mb⟩ ∧
    bytesToString 1048575 = some ⟨false, 1023999, .kb⟩ := by decide +kernel

/-- A count just below the gigabyte is shown as 1024.000 megabytes. -/
theorem C97_thousand_and_twenty_four :
    bytesToString (2 ^ 30 - 1) = some ⟨false, 1024000, .mb⟩ := by decide +kernel

/-- The least number cannot be shown: its negation overflows. -/
theorem C97_least_undefined : bytesToString (-2 ^ 63) = none := by decide +kernel

/-! ## Resident memory -/

/-- Field `i` (from 4 on) of the file, as numbered in the manual. -/
def statField (fields : List Int) (i : Nat) : Option Int := fields[i - 4]?

/-- The number of texts the name takes in the file. -/
def nameWords (name : List Char) : Nat := (wordsFrom [] ('(' :: name ++ [')'])).length

/-- A name that takes `w` texts in the file shifts the field that is read by `w - 1`. -/
theorem C97_rss_field (page pid : Int) (name state : List Char) (fields : List Int)
    (hw : 1 ≤ nameWords name ∧ nameWords name ≤ 20) (hf : 24 ≤ fields.length + 3) :
    currentRSS page (statFile pid name state fields) =
      (statField fields (24 - (nameWords name - 1))).map (· * page) := by
  unfold currentRSS statFile statField
  unfold nameWords at hw ⊢
  generalize wordsFrom [] ('(' :: name ++ [')']) = ws at *
  obtain ⟨h1, h20⟩ := hw
  have hd : (Token.number pid :: (ws.map Token.text ++ .text state :: fields.map Token.number)).drop 22 =
      (fields.drop (20 - ws.length)).map Token.number := by
    rw [show 22 = 21 + 1 from rfl, List.drop_succ_cons, List.drop_append,
      List.drop_eq_nil_of_le (by simp; omega), List.nil_append, List.length_map,
      show 21 - ws.length = (20 - ws.length) + 1 from by omega, List.drop_succ_cons, List.map_drop]
  rw [hd]
  have ha : 20 - ws.length < fields.length := by omega
  have hb : 20 - ws.length + 1 < fields.length := by omega
  rw [List.drop_eq_getElem_cons ha, List.drop_eq_getElem_cons hb]
  simp only [List.map_cons]
  have e : 24 - (ws.length - 1) - 4 = 20 - ws.length + 1 := by omega
  rw [e, List.getElem?_eq_getElem hb, Option.map_some]

theorem nameWords_one_iff (name : List Char) :
    nameWords name = 1 ↔ ∀ c ∈ name, white c = false := by
  have hopen : white '(' = false := by decide
  have hclose : white ')' = false := by decide
  unfold nameWords
  rw [List.cons_append, wordsFrom, if_neg (by simp [hopen])]
  constructor
  · intro h c hc
    by_contra hw
    have := wordsFrom_two ['('] name ')' hclose (by simp) ⟨c, hc, by simpa using hw⟩
    omega
  · intro h
    rw [wordsFrom_plain ['('] (name ++ [')']) ?_ (by simp)]
    · rfl
    · intro c hc
      rcases List.mem_append.1 hc with hc | hc
      · exact h c hc
      · rw [List.mem_singleton.1 hc]; exact hclose

/-- The resident memory is right for a process whose name has no white space: field 24 of the file
in pages. -/
theorem C97_rss_right (page pid : Int) (name state : List Char) (fields : List Int)
    (hname : ∀ c ∈ name, white c = false) (hf : 24 ≤ fields.length + 3) :
    currentRSS page (statFile pid name state fields) = (statField fields 24).map (· * page) := by
  have h1 := (nameWords_one_iff name).2 hname
  rw [C97_rss_field page pid name state fields (by omega) hf, h1]

/-- With a space in the name another field is read, whatever the numbers: for a name of two texts it
is the size of the virtual memory, a number of bytes, taken as a number of pages. -/
theorem C97_rss_wrong (page pid : Int) (name state : List Char) (fields : List Int)
    (hname : nameWords name = 2) (hf : 24 ≤ fields.length + 3) :
    currentRSS page (statFile pid name state fields) = (statField fields 23).map (· * page) := by
  rw [C97_rss_field page pid name state fields (by omega) hf, hname]

/-- The numbers of a process with a megabyte of virtual memory and three resident pages. -/
def threePages : List Int := List.replicate 19 0 ++ [1048576, 3] ++ List.replicate 28 0

example : (∀ c ∈ "maya.bin".toList, white c = false) ∧ 24 ≤ threePages.length + 3 ∧
    currentRSS 4096 (statFile 7 "maya.bin".toList ['S'] threePages) = some 12288 := by decide +kernel

example : nameWords "Web Content".toList = 2 ∧
    currentRSS 4096 (statFile 7 "Web Content".toList ['S'] threePages) = some 4294967296 := by
  decide +kernel

end F3D.Props

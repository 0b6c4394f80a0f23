import Verif.Model.Curve
import Mathlib.Tactic.Linarith
import Mathlib.Algebra.Order.Field.Basic
import Mathlib.Tactic.Ring

/-!
# C56: animation curves
-/

namespace F3D
namespace Curve
variable {T : Type}

/-! ## Specification -/

/-- The value given last for time `t` in a history of additions. -/
def lastFor (t : Rat) : List (Rat × T) → Option T
  | [] => none
  | h :: hs => match lastFor t hs with
    | some v => some v
    | none => if h.1 = t then some h.2 else none

/-- Strictly increasing times. -/
def Sorted (c : Curve T) : Prop := c.Pairwise (fun a b => a.1 < b.1)

/-- A curve built by a history of additions. -/
def build (h : List (Rat × T)) : Curve T := h.foldl (fun c s => addSample c s.1 s.2) []

/-! ## Lemmas -/

/-- The abstract insertion: put `(t, v)` at its place. -/
def put (t : Rat) (v : T) : Curve T → Curve T
  | [] => [(t, v)]
  | s :: l => if s.1 = t then (t, v) :: l else if s.1 > t then (t, v) :: s :: l else s :: put t v l

theorem replace_none (t : Rat) (v : T) (c : Curve T) : replace t v c = none ↔ ∀ s ∈ c, s.1 ≠ t := by
  induction c with
  | nil => simp [replace]
  | cons s l ih =>
    by_cases h : s.1 = t
    · simp [replace, h]
    · simp [replace, h, ih]

theorem addSample_eq_put (t : Rat) (v : T) (c : Curve T) (h : Sorted c) : addSample c t v = put t v c := by
  induction c with
  | nil => rfl
  | cons s l ih =>
    have hs := List.pairwise_cons.1 h
    by_cases e : s.1 = t
    · simp [addSample, replace, put, e]
    · by_cases g : s.1 > t
      · have hn : replace t v (s :: l) = none := by
          rw [replace_none]
          intro x hx
          rcases List.mem_cons.1 hx with rfl | hx
          · exact e
          · exact ne_of_gt (lt_trans g (hs.1 x hx))
        simp [addSample, hn, insert, put, e, g]
      · have := ih hs.2
        unfold addSample at this ⊢
        simp only [replace, if_neg e, put, if_neg g]
        cases hr : replace t v l with
        | none => rw [hr] at this; simp only [Option.map_none, insert, if_neg g]; rw [← this]
        | some c' => rw [hr] at this; simp only [Option.map_some]; rw [← this]

theorem mem_put_time (t : Rat) (v : T) (c : Curve T) : ∀ s ∈ put t v c, s = (t, v) ∨ s ∈ c := by
  induction c with
  | nil => simp [put]
  | cons a l ih =>
    intro s hs
    simp only [put] at hs
    split at hs
    · rcases List.mem_cons.1 hs with h | h
      · exact Or.inl h
      · exact Or.inr (List.mem_cons_of_mem _ h)
    · split at hs
      · rcases List.mem_cons.1 hs with h | h
        · exact Or.inl h
        · exact Or.inr h
      · rcases List.mem_cons.1 hs with h | h
        · exact Or.inr (h ▸ List.mem_cons_self)
        · rcases ih s h with h | h
          · exact Or.inl h
          · exact Or.inr (List.mem_cons_of_mem _ h)

theorem put_sorted (t : Rat) (v : T) (c : Curve T) (h : Sorted c) : Sorted (put t v c) := by
  induction c with
  | nil => exact List.pairwise_singleton _ _
  | cons s l ih =>
    have hs := List.pairwise_cons.1 h
    simp only [put]
    split
    · rename_i e
      exact List.pairwise_cons.2 ⟨fun x hx => by rw [← e]; exact hs.1 x hx, hs.2⟩
    · rename_i e
      split
      · rename_i g
        refine List.pairwise_cons.2 ⟨fun x hx => ?_, h⟩
        rcases List.mem_cons.1 hx with rfl | hx
        · exact g
        · exact lt_trans g (hs.1 x hx)
      · rename_i g
        refine List.pairwise_cons.2 ⟨fun x hx => ?_, ih hs.2⟩
        rcases mem_put_time t v l x hx with rfl | hx
        · exact lt_of_le_of_ne (not_lt.1 g) e
        · exact hs.1 x hx

theorem mem_put (t : Rat) (v : T) (c : Curve T) (h : Sorted c) (u : Rat) (w : T) :
    (u, w) ∈ put t v c ↔ if u = t then w = v else (u, w) ∈ c := by
  induction c with
  | nil =>
    simp only [put, List.mem_singleton, Prod.mk.injEq, List.not_mem_nil]
    split <;> simp_all
  | cons s l ih =>
    have hs := List.pairwise_cons.1 h
    have hlt : ∀ w, s.1 ≥ t → (t, w) ∉ l := fun w hg hm => absurd (hs.1 _ hm) (not_lt.2 hg)
    simp only [put]
    split
    · rename_i e
      rw [List.mem_cons, List.mem_cons]
      by_cases hu : u = t
      · rw [if_pos hu]
        subst hu
        constructor
        · rintro (h | h)
          · injection h
          · exact absurd h (hlt w e.ge)
        · intro h; exact Or.inl (by rw [h])
      · rw [if_neg hu]
        constructor
        · rintro (h | h)
          · injection h with h1; exact absurd h1 hu
          · exact Or.inr h
        · rintro (h | h)
          · exact absurd (by rw [← e, ← h]) hu
          · exact Or.inr h
    · rename_i e
      split
      · rename_i g
        rw [List.mem_cons]
        by_cases hu : u = t
        · rw [if_pos hu]
          subst hu
          constructor
          · rintro (h | h)
            · injection h
            · rcases List.mem_cons.1 h with h | h
              · exact absurd (by rw [← h]) e
              · exact absurd h (hlt w g.le)
          · intro h; exact Or.inl (by rw [h])
        · rw [if_neg hu]
          constructor
          · rintro (h | h)
            · injection h with h1; exact absurd h1 hu
            · exact h
          · intro h; exact Or.inr h
      · rename_i g
        rw [List.mem_cons, ih hs.2, List.mem_cons]
        by_cases hu : u = t
        · rw [if_pos hu, if_pos hu]
          subst hu
          constructor
          · rintro (h | h)
            · exact absurd (by rw [← h]) e
            · exact h
          · exact Or.inr
        · rw [if_neg hu, if_neg hu]

theorem lastFor_snoc (t u : Rat) (v : T) (h : List (Rat × T)) :
    lastFor t (h ++ [(u, v)]) = if u = t then some v else lastFor t h := by
  induction h with
  | nil => simp [lastFor]
  | cons a l ih =>
    simp only [List.cons_append, lastFor, ih]
    by_cases hu : u = t <;> simp [hu]

theorem build_snoc (h : List (Rat × T)) (s : Rat × T) : build (h ++ [s]) = addSample (build h) s.1 s.2 := by
  simp [build, List.foldl_append]

theorem build_spec (h : List (Rat × T)) :
    Sorted (build h) ∧ ∀ u w, (u, w) ∈ build h ↔ lastFor u h = some w := by
  have key : ∀ n, ∀ h : List (Rat × T), h.length = n →
      Sorted (build h) ∧ ∀ u w, (u, w) ∈ build h ↔ lastFor u h = some w := by
    intro n
    induction n with
    | zero => intro h hn; rw [List.length_eq_zero_iff.1 hn]; exact ⟨List.Pairwise.nil, by simp [build, lastFor]⟩
    | succ n ih =>
      intro h hn
      rcases List.eq_nil_or_concat h with rfl | ⟨l, s, rfl⟩
      · simp at hn
      · have hl : l.length = n := by simpa using hn
        obtain ⟨i1, i2⟩ := ih l hl
        rw [List.concat_eq_append, build_snoc, addSample_eq_put _ _ _ i1]
        refine ⟨put_sorted _ _ _ i1, fun u w => ?_⟩
        rw [mem_put _ _ _ i1, lastFor_snoc]
        by_cases hu : u = s.1
        · rw [if_pos hu, if_pos hu.symm]; simp [eq_comm]
        · rw [if_neg hu, if_neg (fun h => hu h.symm), i2]
  exact key _ h rfl

/-! ### Evaluation -/

/-- `linearFrom` when all samples of the rest are later than `lower`. -/
theorem linearFrom_split (lerp : T → T → Rat → T) (t : Rat) (a : Rat × T) (pre : Curve T) (b : Rat × T)
    (post : Curve T) (lower : Rat × T)
    (hp : ∀ s ∈ pre ++ [a], s.1 ≤ t) (hb : t < b.1) :
    linearFrom lerp t lower (pre ++ a :: b :: post) = lerp a.2 b.2 (lerpfactor t a.1 b.1) := by
  induction pre generalizing lower with
  | nil =>
    have ha : ¬ (a.1 > t) := not_lt.2 (hp a (by simp))
    simp [linearFrom, ha, hb]
  | cons s l ih =>
    have hs : ¬ (s.1 > t) := not_lt.2 (hp s (by simp))
    simp only [List.cons_append, linearFrom, if_neg hs]
    exact ih s (fun x hx => hp x (by simp only [List.cons_append, List.mem_cons]; exact Or.inr hx))

theorem linear_split (lerp : T → T → Rat → T) (d : T) (t : Rat) (a : Rat × T) (pre : Curve T) (b : Rat × T)
    (post : Curve T) (hp : ∀ s ∈ pre ++ [a], s.1 ≤ t) (hb : t < b.1) :
    linear lerp d (pre ++ a :: b :: post) t = lerp a.2 b.2 (lerpfactor t a.1 b.1) := by
  cases pre with
  | nil =>
    have ha : ¬ (a.1 > t) := not_lt.2 (hp a (by simp))
    simp [linear, linearFrom, ha, hb]
  | cons s l =>
    have hs : ¬ (s.1 > t) := not_lt.2 (hp s (by simp))
    simp only [List.cons_append, linear, if_neg hs]
    exact linearFrom_split lerp t a l b post s
      (fun x hx => hp x (by simp only [List.cons_append, List.mem_cons]; exact Or.inr hx)) hb

theorem linearFrom_last (lerp : T → T → Rat → T) (t : Rat) (a : Rat × T) (pre : Curve T) (lower : Rat × T)
    (hp : ∀ s ∈ pre ++ [a], s.1 ≤ t) : linearFrom lerp t lower (pre ++ [a]) = a.2 := by
  induction pre generalizing lower with
  | nil =>
    have ha : ¬ (a.1 > t) := not_lt.2 (hp a (by simp))
    simp [linearFrom, ha]
  | cons s l ih =>
    have hs : ¬ (s.1 > t) := not_lt.2 (hp s (by simp))
    simp only [List.cons_append, linearFrom, if_neg hs]
    exact ih s (fun x hx => hp x (by simp only [List.cons_append, List.mem_cons]; exact Or.inr hx))

theorem linear_last (lerp : T → T → Rat → T) (d : T) (t : Rat) (a : Rat × T) (pre : Curve T)
    (hp : ∀ s ∈ pre ++ [a], s.1 ≤ t) : linear lerp d (pre ++ [a]) t = a.2 := by
  cases pre with
  | nil =>
    have ha : ¬ (a.1 > t) := not_lt.2 (hp a (by simp))
    simp [linear, linearFrom, ha]
  | cons s l =>
    have hs : ¬ (s.1 > t) := not_lt.2 (hp s (by simp))
    simp only [List.cons_append, linear, if_neg hs]
    exact linearFrom_last lerp t a l s
      (fun x hx => hp x (by simp only [List.cons_append, List.mem_cons]; exact Or.inr hx))

theorem linear_first (lerp : T → T → Rat → T) (d : T) (t : Rat) (a : Rat × T) (l : Curve T) (h : t < a.1) :
    linear lerp d (a :: l) t = a.2 := by simp [linear, h]

end Curve

namespace Props
open Curve
variable {T : Type}

/-- C56: whatever the order of the additions, the samples are sorted by strictly increasing time, and there is a
sample `w` at time `u` exactly if `w` is the value last added for `u`. -/
theorem C56_samples (h : List (Rat × T)) :
    Sorted (build h) ∧ ∀ u w, (u, w) ∈ build h ↔ lastFor u h = some w := build_spec h

example : build [(2, 'a'), (0, 'b'), (1, 'c'), (2, 'd')] = [(0, 'b'), (1, 'c'), (2, 'd')] := by decide +kernel

/-- C56: the order of additions for distinct times does not matter: two histories with the same last values build
the same curve. -/
theorem C56_order_irrelevant (h h' : List (Rat × T)) (e : ∀ t, lastFor t h = lastFor t h') : build h = build h' := by
  obtain ⟨s1, m1⟩ := build_spec h
  obtain ⟨s2, m2⟩ := build_spec h'
  have key : ∀ (a b : Curve T), Sorted a → Sorted b → (∀ u w, (u, w) ∈ a ↔ (u, w) ∈ b) → a = b := by
    intro a
    induction a with
    | nil =>
      intro b _ _ hm
      cases b with
      | nil => rfl
      | cons y l => exact absurd ((hm y.1 y.2).2 List.mem_cons_self) (List.not_mem_nil)
    | cons x l ih =>
      intro b ha hb hm
      cases b with
      | nil => exact absurd ((hm x.1 x.2).1 List.mem_cons_self) (List.not_mem_nil)
      | cons y l' =>
        have ha' := List.pairwise_cons.1 ha
        have hb' := List.pairwise_cons.1 hb
        have hxy : x = y := by
          rcases List.mem_cons.1 ((hm x.1 x.2).1 List.mem_cons_self) with h | h
          · exact h
          · rcases List.mem_cons.1 ((hm y.1 y.2).2 List.mem_cons_self) with h2 | h2
            · exact h2.symm
            · exact absurd (lt_trans (ha'.1 _ h2) (hb'.1 _ h)) (lt_irrefl _)
        subst hxy
        rw [ih l' ha'.2 hb'.2]
        intro u w
        have := hm u w
        rw [List.mem_cons, List.mem_cons] at this
        constructor
        · intro hu
          rcases this.1 (Or.inr hu) with h | h
          · exact absurd (by rw [← h]) (ne_of_lt (ha'.1 _ hu))
          · exact h
        · intro hu
          rcases this.2 (Or.inr hu) with h | h
          · exact absurd (by rw [← h]) (ne_of_lt (hb'.1 _ hu))
          · exact h
  exact key _ _ s1 s2 (fun u w => by rw [m1, m2, e])

/-- C56: at the time of a sample the curve has the value of the sample (the interpolation being exact at 0). -/
theorem C56_at_samples (lerp : T → T → Rat → T) (d : T) (h0 : ∀ a b, lerp a b 0 = a)
    (h : List (Rat × T)) (u : Rat) (w : T) (hu : lastFor u h = some w) : linear lerp d (build h) u = w := by
  obtain ⟨hs, hm⟩ := build_spec h
  obtain ⟨pre, post, he⟩ := List.append_of_mem ((hm u w).2 hu)
  rw [he] at hs ⊢
  have hp : ∀ s ∈ pre ++ [(u, w)], s.1 ≤ u := by
    intro s hsm
    rcases List.mem_append.1 hsm with h | h
    · exact le_of_lt ((List.pairwise_append.1 hs).2.2 s h _ List.mem_cons_self)
    · rw [List.mem_singleton.1 h]
  cases post with
  | nil => exact linear_last lerp d u (u, w) pre hp
  | cons b post =>
    have hb : u < b.1 := (List.pairwise_cons.1 (List.pairwise_append.1 hs).2.1).1 b List.mem_cons_self
    rw [linear_split lerp d u (u, w) pre b post hp hb]
    have : lerpfactor u u b.1 = 0 := by unfold lerpfactor; split <;> simp
    rw [this, h0]

/-- C56: without samples the default is returned; before the first sample its value; after the last sample its
value. -/
theorem C56_outside (lerp : T → T → Rat → T) (d : T) (h : List (Rat × T)) (t : Rat) :
    (h = [] → linear lerp d (build h) t = d) ∧
    (∀ u w, lastFor u h = some w → (∀ u' w', lastFor u' h = some w' → u ≤ u') → t ≤ u → (∀ a b, lerp a b 0 = a) →
      linear lerp d (build h) t = w) ∧
    (∀ u w, lastFor u h = some w → (∀ u' w', lastFor u' h = some w' → u' ≤ u) → u ≤ t →
      linear lerp d (build h) t = w) := by
  obtain ⟨hs, hm⟩ := build_spec h
  refine ⟨fun e => by subst e; rfl, fun u w hu hmin ht h0 => ?_, fun u w hu hmax ht => ?_⟩
  · rcases lt_or_eq_of_le ht with ht | ht
    · cases hc : build h with
      | nil => exact absurd ((hm u w).2 hu) (by rw [hc]; exact List.not_mem_nil)
      | cons a l =>
        have ha : lastFor a.1 h = some a.2 := (hm a.1 a.2).1 (by rw [hc]; exact List.mem_cons_self)
        rw [hc] at hs
        have hau : a = (u, w) := by
          have h1 := (hm u w).2 hu
          rw [hc] at h1
          rcases List.mem_cons.1 h1 with h | h
          · exact h.symm
          · exact absurd ((List.pairwise_cons.1 hs).1 _ h) (not_lt.2 (hmin _ _ ha))
        rw [linear_first lerp d t a l (by rw [hau]; exact ht), hau]
    · rw [ht]; exact C56_at_samples lerp d h0 h u w hu
  · obtain ⟨pre, post, he⟩ := List.append_of_mem ((hm u w).2 hu)
    have hpost : post = [] := by
      cases post with
      | nil => rfl
      | cons b post =>
        have hb : b ∈ build h := by rw [he]; simp
        rw [he] at hs
        have h1 : u < b.1 := (List.pairwise_cons.1 (List.pairwise_append.1 hs).2.1).1 b List.mem_cons_self
        exact absurd h1 (not_lt.2 (hmax _ _ ((hm b.1 b.2).1 hb)))
    subst hpost
    rw [he] at hs ⊢
    refine linear_last lerp d t (u, w) pre (fun s hsm => ?_)
    rcases List.mem_append.1 hsm with h | h
    · exact le_trans (le_of_lt ((List.pairwise_append.1 hs).2.2 s h _ List.mem_cons_self)) ht
    · rw [List.mem_singleton.1 h]; exact ht

/-- C56: between two neighbouring samples the value is their interpolation, with the factor rising linearly from 0
at the first to 1 at the second. -/
theorem C56_between (lerp : T → T → Rat → T) (d : T) (h : List (Rat × T)) (t u v : Rat) (a b : T)
    (ha : lastFor u h = some a) (hb : lastFor v h = some b) (hut : u ≤ t) (htv : t < v)
    (hn : ∀ x y, lastFor x h = some y → x ≤ u ∨ v ≤ x) :
    linear lerp d (build h) t = lerp a b ((t - u) / (v - u)) := by
  obtain ⟨hs, hm⟩ := build_spec h
  obtain ⟨pre, post, he⟩ := List.append_of_mem ((hm u a).2 ha)
  have hbm := (hm v b).2 hb
  have huv : u < v := lt_of_le_of_lt hut htv
  cases post with
  | nil =>
    rw [he] at hs hbm
    rcases List.mem_append.1 hbm with h | h
    · exact absurd ((List.pairwise_append.1 hs).2.2 _ h (u, a) List.mem_cons_self) (not_lt.2 huv.le)
    · have := List.mem_singleton.1 h
      injection this with e1
      exact absurd e1 (ne_of_gt huv)
  | cons x post =>
    have hxm : x ∈ build h := by rw [he]; simp
    rw [he] at hs hbm ⊢
    have h3 := List.pairwise_append.1 hs
    have hux : u < x.1 := (List.pairwise_cons.1 h3.2.1).1 x List.mem_cons_self
    have hx : x = (v, b) := by
      rcases List.mem_append.1 hbm with h | h
      · exact absurd (h3.2.2 _ h (u, a) List.mem_cons_self) (not_lt.2 huv.le)
      · rcases List.mem_cons.1 h with h | h
        · injection h with e1
          exact absurd e1 (ne_of_gt huv)
        · rcases List.mem_cons.1 h with h | h
          · exact h.symm
          · have h4 := (List.pairwise_cons.1 (List.pairwise_cons.1 h3.2.1).2).1 _ h
            rcases hn _ _ ((hm x.1 x.2).1 hxm) with h5 | h5
            · exact absurd hux (not_lt.2 h5)
            · exact absurd h4 (not_lt.2 h5)
    subst hx
    rw [linear_split lerp d t (u, a) pre (v, b) post _ htv]
    · have : v - u ≠ 0 := by intro h; linarith
      simp [lerpfactor, this]
    · intro s hsm
      rcases List.mem_append.1 hsm with h | h
      · exact le_trans (le_of_lt (h3.2.2 s h _ List.mem_cons_self)) hut
      · rw [List.mem_singleton.1 h]; exact hut

/-- C56: for numbers, the value at any time lies between the least and the greatest sample. -/
theorem C56_bounds (d lo hi : Rat) (h : List (Rat × Rat)) (hne : h ≠ [])
    (hb : ∀ u w, lastFor u h = some w → lo ≤ w ∧ w ≤ hi) (t : Rat) :
    lo ≤ linear lerpQ d (build h) t ∧ linear lerpQ d (build h) t ≤ hi := by
  obtain ⟨hs, hm⟩ := build_spec h
  have hall : ∀ s ∈ build h, lo ≤ s.2 ∧ s.2 ≤ hi := fun s hs => hb s.1 s.2 ((hm s.1 s.2).1 hs)
  have key : ∀ (l : Curve Rat) (lower : Rat × Rat), Sorted (lower :: l) → lower.1 ≤ t →
      (∀ s ∈ lower :: l, lo ≤ s.2 ∧ s.2 ≤ hi) →
      lo ≤ linearFrom lerpQ t lower l ∧ linearFrom lerpQ t lower l ≤ hi := by
    intro l
    induction l with
    | nil => intro lower _ _ h; exact h lower (by simp)
    | cons s l ih =>
      intro lower hso hl hbd
      simp only [linearFrom]
      split
      · rename_i g
        have hlt : 0 < s.1 - lower.1 := by linarith
        have h1 := hbd lower (by simp)
        have h2 := hbd s (by simp)
        have hne : s.1 - lower.1 ≠ 0 := ne_of_gt hlt
        have hf0 : 0 ≤ lerpfactor t lower.1 s.1 := by
          simp only [lerpfactor, if_neg hne]; exact div_nonneg (by linarith) hlt.le
        have hf1 : lerpfactor t lower.1 s.1 ≤ 1 := by
          simp only [lerpfactor, if_neg hne]; exact (div_le_one hlt).2 (by linarith)
        generalize lerpfactor t lower.1 s.1 = f at hf0 hf1
        unfold lerpQ
        constructor <;> nlinarith
      · rename_i g
        exact ih s (List.pairwise_cons.1 hso).2 (not_lt.1 g) (fun x hx => hbd x (List.mem_cons_of_mem _ hx))
  have hne' : build h ≠ [] := by
    intro e
    rcases List.eq_nil_or_concat h with h0 | ⟨l, s, h0⟩
    · exact hne h0
    · have : (s.1, s.2) ∈ build h := (hm _ _).2 (by rw [h0, List.concat_eq_append, lastFor_snoc]; simp)
      rw [e] at this
      exact absurd this List.not_mem_nil
  revert hs hall hne'
  cases build h with
  | nil => intro _ _ h; exact absurd rfl h
  | cons a l =>
    intro hs hall _
    simp only [linear]
    split
    · exact hall a (by simp)
    · rename_i g
      exact key l a hs (not_lt.1 g) hall

example : linear lerpQ 0 (build [(2, 10), (0, 4)]) (1 / 2) = 11 / 2 := by decide +kernel
example : linear lerpQ 0 (build [(2, 10), (0, 4)]) 7 = 10 := by decide +kernel

end Props
end F3D

import Verif.Model.Sampler
import Verif.Proofs.Mapping

/-!
# Loops over points and fields
-/

namespace F3D
namespace Sampler

open Cont (Box3q)

/-- Entry by entry, the first `n` results are changed by `f` and the others are kept. -/
def EachPoint {P A : Type} (f : P → A → Option A) (ps : List P) (n : Nat) (st st' : List A) : Prop :=
  st'.length = st.length ∧
  (∀ i : Nat, i < n → ∃ p a a', ps[i]? = some p ∧ st[i]? = some a ∧ f p a = some a' ∧ st'[i]? = some a') ∧
  (∀ i : Nat, n ≤ i → st'[i]? = st[i]?)

theorem loopPoints_spec {P A : Type} (f : P → A → Option A) (ps : List P) (st : List A) : ∀ (n : Nat) (st' : List A),
    loopPoints f ps n st = some st' ↔ EachPoint f ps n st st' := by
  intro n
  induction n with
  | zero =>
    intro st'
    simp only [loopPoints, List.range_zero, List.foldlM_nil, EachPoint]
    constructor
    · intro h
      injection h with h
      subst h
      exact ⟨rfl, fun i hi => absurd hi (by omega), fun i _ => rfl⟩
    · rintro ⟨_, _, h⟩
      have : st' = st := List.ext_getElem? fun i => h i (by omega)
      rw [this]; rfl
  | succ n ih =>
    intro st'
    have e : loopPoints f ps (n + 1) st = (loopPoints f ps n st).bind fun s => ps[n]?.bind fun p => s[n]?.bind fun a =>
        (f p a).map fun a' => s.set n a' := by
      simp only [loopPoints, List.range_succ, List.foldlM_append, List.foldlM_cons, List.foldlM_nil]
      simp
    rw [e]
    simp only [Option.bind_eq_some_iff, Option.map_eq_some_iff]
    constructor
    · rintro ⟨s, hs, p, hp, a, ha, a', hf, rfl⟩
      obtain ⟨h1, h2, h3⟩ := (ih s).1 hs
      refine ⟨by simp [h1], ?_, ?_⟩
      · intro i hi
        by_cases hin : i = n
        · subst hin
          refine ⟨p, a, a', hp, ?_, hf, ?_⟩
          · rw [← h3 i (by omega)]; exact ha
          · rw [List.getElem?_set_self (by
              rcases Nat.lt_or_ge i s.length with h | h
              · exact h
              · rw [List.getElem?_eq_none h] at ha; simp at ha)]
        · obtain ⟨p, a, a', g1, g2, g3, g4⟩ := h2 i (by omega)
          exact ⟨p, a, a', g1, g2, g3, by rw [List.getElem?_set_ne (by omega)]; exact g4⟩
      · intro i hi
        rw [List.getElem?_set_ne (by omega)]
        exact h3 i (by omega)
    · rintro ⟨h1, h2, h3⟩
      obtain ⟨p, a, a', g1, g2, g3, g4⟩ := h2 n (by omega)
      have hn : n < st'.length := by
        rcases Nat.lt_or_ge n st'.length with h | h
        · exact h
        · rw [List.getElem?_eq_none h] at g4; simp at g4
      refine ⟨st'.set n a, (ih _).2 ⟨by simp [h1], ?_, ?_⟩, p, g1, a, by simp [hn], a', g3, ?_⟩
      · intro i hi
        obtain ⟨p, b, b', k1, k2, k3, k4⟩ := h2 i (by omega)
        exact ⟨p, b, b', k1, k2, k3, by rw [List.getElem?_set_ne (by omega)]; exact k4⟩
      · intro i hi
        by_cases hin : i = n
        · subst hin; rw [List.getElem?_set_self hn, g2]
        · rw [List.getElem?_set_ne (by omega)]; exact h3 i (by omega)
      · rw [List.set_set]
        apply List.ext_getElem?
        intro i
        by_cases hin : i = n
        · subst hin; rw [List.getElem?_set_self hn, g4]
        · rw [List.getElem?_set_ne (by omega)]

/-- The loops over fields (outer) and points (inner) may be exchanged. -/
theorem loopPoints_foldlM {P A W : Type} (g : W → P → A → Option A) (ps : List P) (n : Nat) : ∀ (fs : List W)
    (st st' : List A), n ≤ ps.length → n ≤ st.length →
    (fs.foldlM (fun st w => loopPoints (g w) ps n st) st = some st' ↔
      EachPoint (fun p a => fs.foldlM (fun a w => g w p a) a) ps n st st') := by
  intro fs
  induction fs with
  | nil =>
    intro st st' hp hs
    simp only [List.foldlM_nil]
    constructor
    · intro h
      injection h with h
      subst h
      refine ⟨rfl, fun i hi => ⟨ps[i], st[i], st[i], ?_, ?_, rfl, ?_⟩, fun i _ => rfl⟩ <;> simp
    · rintro ⟨h1, h2, h3⟩
      have : st' = st := by
        apply List.ext_getElem?
        intro i
        by_cases hi : i < n
        · obtain ⟨p, a, a', g1, g2, g3, g4⟩ := h2 i hi
          injection g3 with g3
          rw [g4, g2, g3]
        · exact h3 i (by omega)
      rw [this]; rfl
  | cons w fs ih =>
    intro st st' hp hs
    simp only [List.foldlM_cons, Option.bind_eq_bind, Option.bind_eq_some_iff]
    constructor
    · rintro ⟨mid, hm, hr⟩
      obtain ⟨m1, m2, m3⟩ := (loopPoints_spec _ _ _ _ _).1 hm
      obtain ⟨r1, r2, r3⟩ := (ih mid st' hp (by omega)).1 hr
      refine ⟨by omega, ?_, fun i hi => by rw [r3 i hi, m3 i hi]⟩
      intro i hi
      obtain ⟨p, a, b, k1, k2, k3, k4⟩ := m2 i hi
      obtain ⟨p', b', c, l1, l2, l3, l4⟩ := r2 i hi
      rw [k1] at l1; injection l1 with l1; subst l1
      rw [k4] at l2; injection l2 with l2; subst l2
      exact ⟨p, a, c, k1, k2, by simp [k3, l3], l4⟩
    · rintro ⟨h1, h2, h3⟩
      let mid : List A := st.mapIdx fun i a => if i < n then ((ps[i]?.bind fun p => g w p a).getD a) else a
      have hmid : ∀ i : Nat, mid[i]? = st[i]?.map fun a => if i < n then ((ps[i]?.bind fun p => g w p a).getD a) else a := by
        intro i; simp [mid, List.getElem?_mapIdx]
      have hlen : mid.length = st.length := by simp [mid]
      refine ⟨mid, (loopPoints_spec _ _ _ _ _).2 ⟨hlen, ?_, ?_⟩, (ih mid st' hp (by omega)).2 ⟨by omega, ?_, ?_⟩⟩
      · intro i hi
        obtain ⟨p, a, c, k1, k2, k3, k4⟩ := h2 i hi
        simp only [Option.bind_eq_some_iff] at k3
        obtain ⟨b, k3, k5⟩ := k3
        exact ⟨p, a, b, k1, k2, k3, by rw [hmid, k2, Option.map_some, if_pos hi, k1, Option.bind_some, k3]; rfl⟩
      · intro i hi
        have hn : ¬ i < n := by omega
        rw [hmid]
        simp [hn]
      · intro i hi
        obtain ⟨p, a, c, k1, k2, k3, k4⟩ := h2 i hi
        simp only [Option.bind_eq_some_iff] at k3
        obtain ⟨b, k3, k5⟩ := k3
        exact ⟨p, b, c, k1, by rw [hmid, k2, Option.map_some, if_pos hi, k1, Option.bind_some, k3]; rfl, k5, k4⟩
      · intro i hi
        have hn : ¬ i < n := by omega
        rw [h3 i hi, hmid]
        simp [hn]

end Sampler
end F3D

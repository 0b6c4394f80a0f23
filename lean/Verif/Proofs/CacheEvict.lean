import Verif.Proofs.Cache

namespace F3D.Cache
namespace St
variable {α : Type}

/-- Unpinned blocks the hand would free at once, and those it would free on the second pass. -/
def order (c : St α) : List Key :=
  c.path.filter (fun k => decide (¬ c.refs k > 0) && !c.used k) ++
  c.path.filter (fun k => decide (¬ c.refs k > 0) && c.used k)

inductive IterKind (c : St α) : Option Key → Prop where
  | keep : c.evictIter.order = c.order → (∀ k, k ∈ c.path ↔ k ∈ c.evictIter.path) →
      c.evictIter.memUse = c.memUse → c.evictIter.path.Nodup → IterKind c none
  | drop (k : Key) : c.order = k :: c.evictIter.order → k ∈ c.path → k ∉ c.evictIter.path →
      c.evictIter.memUse = c.memUse - c.size k → c.evictIter.path.Nodup → IterKind c (some k)

theorem filter_upd_not_mem {l : List Key} {k : Key} (hk : k ∉ l) (u : Key → Bool) (p : Key → Bool → Bool) :
    l.filter (fun x => p x (upd u k false x)) = l.filter (fun x => p x (u x)) := by
  apply List.filter_congr
  intro x hx
  rw [upd_ne]
  intro e; subst e; exact hk hx

theorem iterKind {c : St α} (hn : c.path.Nodup) : ∃ v, IterKind c v := by
  cases hp : c.path with
  | nil =>
    refine ⟨none, .keep ?_ ?_ ?_ ?_⟩
    · rw [evictIter_nil hp]
    · rw [evictIter_nil hp]; simp
    · rw [evictIter_nil hp]
    · rw [evictIter_nil hp]; exact hn
  | cons k rest =>
    have hnd := hn
    rw [hp, List.nodup_cons] at hnd
    have hperm : (rest ++ [k]).Perm c.path := by
      rw [hp]; exact List.perm_append_comm
    by_cases hr : c.refs k > 0
    · obtain ⟨p, q, e, hq⟩ := evictIter_pinned hp hr
      have hpath : c.evictIter.path = rest ++ [k] := by rw [e]; exact hq
      refine ⟨none, .keep ?_ ?_ ?_ ?_⟩
      · unfold order
        rw [hpath, hp, e]
        have hr' : ¬ c.refs k ≤ 0 := by omega
        simp [List.filter_append, hr']
      · intro x; rw [hpath, hperm.mem_iff]
      · rw [e]
      · rw [hpath]; exact hperm.nodup_iff.mpr hn
    · cases hu : c.used k with
      | true =>
        obtain ⟨p, q, e, hq⟩ := evictIter_used hp hr hu
        have hpath : c.evictIter.path = rest ++ [k] := by rw [e]; exact hq
        refine ⟨none, .keep ?_ ?_ ?_ ?_⟩
        · unfold order
          rw [hpath, hp, e]
          simp only [List.filter_append, List.filter_cons, List.filter_nil, upd_same, hr, hu]
          rw [filter_upd_not_mem hnd.1 c.used (fun x b => decide (¬ c.refs x > 0) && !b),
            filter_upd_not_mem hnd.1 c.used (fun x b => decide (¬ c.refs x > 0) && b)]
          simp
        · intro x; rw [hpath, hperm.mem_iff]
        · rw [e]
        · rw [hpath]; exact hperm.nodup_iff.mpr hn
      | false =>
        obtain ⟨p, q, e, hq⟩ := evictIter_free hp hr hu
        have hpath : c.evictIter.path = rest := by rw [e]; exact hq
        refine ⟨some k, .drop k ?_ ?_ ?_ ?_ ?_⟩
        · unfold order
          rw [hpath, hp, e]
          have hr' : c.refs k ≤ 0 := by omega
          simp [hr', hu, unload]
        · rw [hp]; simp
        · rw [hpath]; exact hnd.1
        · rw [e]
        · rw [hpath]; exact hnd.2

theorem Evicts.nodup_order {needed : Nat} {c c' : St α} {vs : List Key} {n : Nat}
    (h : Evicts needed c vs n c') (hn : c.path.Nodup) :
    c.order = vs ++ c'.order ∧ c'.path.Nodup ∧ c'.memUse = c.memUse - total c.size vs ∧
      c'.size = c.size ∧ c'.maxMem = c.maxMem ∧ c'.refs = c.refs := by
  induction h with
  | stop => refine ⟨rfl, hn, ?_, rfl, rfl, rfl⟩; simp [total]
  | @turn c c' vs n hc hk _ ih =>
    obtain ⟨e1, e2, _, e4, _⟩ := evictIter_const c
    obtain ⟨v, hv⟩ := iterKind hn
    cases hv with
    | keep h1 h2 h3 h4 =>
      obtain ⟨i1, i2, i3, i4, i5, i6⟩ := ih h4
      refine ⟨by rw [← h1]; exact i1, i2, ?_, by rw [i4, e2], by rw [i5, e4], by rw [i6, e1]⟩
      rw [i3, h3, e2]
    | drop k h1 h2 h3 h4 _ =>
      exact absurd (mem_list.mp (hk k (mem_list.mpr h2))) h3
  | @free c c' vs n k hc hk hk' _ ih =>
    obtain ⟨e1, e2, _, e4, _⟩ := evictIter_const c
    obtain ⟨v, hv⟩ := iterKind hn
    rw [mem_list] at hk hk'
    cases hv with
    | keep h1 h2 h3 h4 => exact absurd ((h2 k).mp hk) hk'
    | drop k' h1 h2 h3 h4 h5 =>
      obtain ⟨i1, i2, i3, i4, i5, i6⟩ := ih h5
      have hkk : k = k' := by
        have hm : k ∈ c.path := hk
        -- the only block that leaves is the first of the order
        cases hp : c.path with
        | nil => rw [hp] at hm; simp at hm
        | cons a rest =>
          by_cases hr : c.refs a > 0
          · obtain ⟨p, q, e, hq⟩ := evictIter_pinned hp hr
            have : c.evictIter.path = rest ++ [a] := by rw [e]; exact hq
            rw [this] at h3; rw [hp] at h2; simp at h2 h3
            rcases h2 with h2 | h2
            · exact absurd h2 h3.2
            · exact absurd h2 h3.1
          · cases hu : c.used a with
            | true =>
              obtain ⟨p, q, e, hq⟩ := evictIter_used hp hr hu
              have : c.evictIter.path = rest ++ [a] := by rw [e]; exact hq
              rw [this] at h3; rw [hp] at h2; simp at h2 h3
              rcases h2 with h2 | h2
              · exact absurd h2 h3.2
              · exact absurd h2 h3.1
            | false =>
              obtain ⟨p, q, e, hq⟩ := evictIter_free hp hr hu
              have hh : c.evictIter.path = rest := by rw [e]; exact hq
              rw [hh] at h3 hk'; rw [hp] at h2 hm
              simp at h2 hm
              rw [hm.resolve_right hk', h2.resolve_right h3]
      subst hkk
      refine ⟨by rw [h1, i1]; rfl, i2, ?_, by rw [i4, e2], by rw [i5, e4], by rw [i6, e1]⟩
      rw [i3, h4, e2, total_cons]; omega

/-- Iterations left before everything unpinned is gone. -/
def weight (c : St α) : Nat :=
  (c.path.filter (fun k => decide (¬ c.refs k > 0) && !c.used k)).length +
  2 * (c.path.filter (fun k => decide (¬ c.refs k > 0) && c.used k)).length

/-- Position of the first unpinned block. -/
def lead (c : St α) : Nat := c.path.findIdx (fun k => decide (¬ c.refs k > 0))

theorem weight_step {c : St α} (hn : c.path.Nodup) {k : Key} {rest : List Key} (hp : c.path = k :: rest) :
    (c.refs k > 0 ∧ c.evictIter.weight = c.weight ∧ c.evictIter.path = rest ++ [k]) ∨
    (¬ c.refs k > 0 ∧ c.evictIter.weight + 1 = c.weight) := by
  have hnd := hn
  rw [hp, List.nodup_cons] at hnd
  by_cases hr : c.refs k > 0
  · left
    obtain ⟨p, q, e, hq⟩ := evictIter_pinned hp hr
    have hpath : c.evictIter.path = rest ++ [k] := by rw [e]; exact hq
    refine ⟨hr, ?_, hpath⟩
    unfold weight
    rw [hpath, hp, e]
    have hr' : ¬ c.refs k ≤ 0 := by omega
    simp [List.filter_append, hr']
  · right
    refine ⟨hr, ?_⟩
    cases hu : c.used k with
    | true =>
      obtain ⟨p, q, e, hq⟩ := evictIter_used hp hr hu
      have hpath : c.evictIter.path = rest ++ [k] := by rw [e]; exact hq
      unfold weight
      rw [hpath, hp, e]
      simp only [List.filter_append, List.filter_cons, List.filter_nil, upd_same, hr, hu]
      rw [filter_upd_not_mem hnd.1 c.used (fun x b => decide (¬ c.refs x > 0) && !b),
        filter_upd_not_mem hnd.1 c.used (fun x b => decide (¬ c.refs x > 0) && b)]
      simp; omega
    | false =>
      obtain ⟨p, q, e, hq⟩ := evictIter_free hp hr hu
      have hpath : c.evictIter.path = rest := by rw [e]; exact hq
      unfold weight
      rw [hpath, hp, e]
      have hr' : c.refs k ≤ 0 := by omega
      simp [hr', hu, unload]
      omega

theorem weight_le (c : St α) : c.weight ≤ 2 * c.path.length := by
  unfold weight
  generalize c.path = l
  induction l with
  | nil => simp
  | cons a l ih =>
    simp only [List.filter_cons, List.length_cons]
    cases hu : c.used a <;> by_cases hr : c.refs a ≤ 0 <;> simp [hr] at ih ⊢ <;> omega

/-- Extend a run by an iteration in front. -/
theorem Evicts.cons {needed : Nat} {c c' : St α} (hn : c.path.Nodup) (hc : c.evictCond needed = true)
    {vs : List Key} {n : Nat} (h : Evicts needed c.evictIter vs n c') :
    ∃ vs', Evicts needed c vs' (n + 1) c' := by
  obtain ⟨v, hv⟩ := iterKind hn
  cases hv with
  | keep _ h2 _ _ => exact ⟨vs, .turn hc (fun k hk => mem_list.mpr ((h2 k).mp (mem_list.mp hk))) h⟩
  | drop k _ h2 h3 _ _ =>
    exact ⟨k :: vs, .free k hc (mem_list.mpr h2) (fun hk => h3 (mem_list.mp hk)) h⟩

theorem iter_nodup {c : St α} (hn : c.path.Nodup) : c.evictIter.path.Nodup := by
  obtain ⟨v, hv⟩ := iterKind hn
  cases hv with
  | keep _ _ _ h => exact h
  | drop _ _ _ _ _ h => exact h

theorem iter_sub {c : St α} (hn : c.path.Nodup) {k : Key} (hk : k ∈ c.evictIter.path) : k ∈ c.path := by
  cases hp : c.path with
  | nil => rw [evictIter_nil hp, hp] at hk; exact hk
  | cons a rest =>
    by_cases hr : c.refs a > 0
    · obtain ⟨p, q, e, hq⟩ := evictIter_pinned hp hr
      have : c.evictIter.path = rest ++ [a] := by rw [e]; exact hq
      rw [this] at hk; simpa [or_comm] using hk
    · cases hu : c.used a with
      | true =>
        obtain ⟨p, q, e, hq⟩ := evictIter_used hp hr hu
        have : c.evictIter.path = rest ++ [a] := by rw [e]; exact hq
        rw [this] at hk; simpa [or_comm] using hk
      | false =>
        obtain ⟨p, q, e, hq⟩ := evictIter_free hp hr hu
        have : c.evictIter.path = rest := by rw [e]; exact hq
        rw [this] at hk; exact List.mem_cons_of_mem _ hk

/-- Without pinned blocks the loop stops after at most `weight` iterations. -/
theorem evicts_unpinned {needed : Nat} : ∀ (w : Nat) (c : St α), c.path.Nodup →
    (∀ k ∈ c.path, ¬ c.refs k > 0) → c.weight = w →
    ∃ vs n c', Evicts needed c vs n c' ∧ n ≤ w := by
  intro w
  induction w with
  | zero =>
    intro c hn hp hw
    cases hpath : c.path with
    | nil =>
      refine ⟨[], 0, c, .stop ?_, Nat.le_refl _⟩
      rw [Bool.eq_false_iff]; intro h; exact (evictCond_iff.mp h).1 hpath
    | cons k rest =>
      rcases weight_step hn hpath with ⟨h, _⟩ | ⟨_, h⟩
      · exact absurd h (hp k (by rw [hpath]; simp))
      · omega
  | succ w ih =>
    intro c hn hp hw
    cases hc : c.evictCond needed with
    | false => exact ⟨[], 0, c, .stop hc, Nat.zero_le _⟩
    | true =>
      cases hpath : c.path with
      | nil => exact absurd hpath (evictCond_iff.mp hc).1
      | cons k rest =>
        rcases weight_step hn hpath with ⟨h, _⟩ | ⟨_, h⟩
        · exact absurd h (hp k (by rw [hpath]; simp))
        · obtain ⟨vs, n, c', h1, h2⟩ := ih c.evictIter (iter_nodup hn)
            (by intro x hx; rw [(evictIter_const c).1]; exact hp x (iter_sub hn hx)) (by omega)
          obtain ⟨vs', h3⟩ := Evicts.cons hn hc h1
          exact ⟨vs', n + 1, c', h3, by omega⟩

/-- The pinned blocks of the list. -/
def pinned (c : St α) : List Key := c.path.filter (fun k => decide (c.refs k > 0))

theorem pinned_iter {c : St α} : (c.evictIter.pinned).Perm c.pinned := by
  unfold pinned
  rw [(evictIter_const c).1]
  cases hp : c.path with
  | nil => rw [evictIter_nil hp, hp]
  | cons a rest =>
    by_cases hr : c.refs a > 0
    · obtain ⟨p, q, e, hq⟩ := evictIter_pinned hp hr
      have : c.evictIter.path = rest ++ [a] := by rw [e]; exact hq
      rw [this]; exact List.perm_append_comm.filter _
    · cases hu : c.used a with
      | true =>
        obtain ⟨p, q, e, hq⟩ := evictIter_used hp hr hu
        have : c.evictIter.path = rest ++ [a] := by rw [e]; exact hq
        rw [this]; exact List.perm_append_comm.filter _
      | false =>
        obtain ⟨p, q, e, hq⟩ := evictIter_free hp hr hu
        have : c.evictIter.path = rest := by rw [e]; exact hq
        rw [this, List.filter_cons]; simp [hr]

theorem memUse_iter {c : St α} (h : c.memUse = total c.size c.path) :
    c.evictIter.memUse = total c.evictIter.size c.evictIter.path := by
  cases hp : c.path with
  | nil => rw [evictIter_nil hp]; exact h
  | cons a rest =>
    have hperm : (rest ++ [a]).Perm c.path := by
      rw [hp]; exact List.perm_append_comm
    by_cases hr : c.refs a > 0
    · obtain ⟨p, q, e, hq⟩ := evictIter_pinned hp hr
      have : c.evictIter.path = rest ++ [a] := by rw [e]; exact hq
      rw [this, total_perm hperm, e]; exact h
    · cases hu : c.used a with
      | true =>
        obtain ⟨p, q, e, hq⟩ := evictIter_used hp hr hu
        have : c.evictIter.path = rest ++ [a] := by rw [e]; exact hq
        rw [this, total_perm hperm, e]; exact h
      | false =>
        obtain ⟨p, q, e, hq⟩ := evictIter_free hp hr hu
        have : c.evictIter.path = rest := by rw [e]; exact hq
        rw [this, e]
        show c.memUse - _ = total c.size rest
        rw [h, hp, total_cons]; omega

theorem total_sub {size : Key → Nat} (p : Key → Bool) (l : List Key) :
    total size (l.filter p) ≤ total size l := by
  have := total_filter size p l
  have h2 := total_nonneg size (l.filter (fun k => !p k))
  omega

theorem lead_lt {c : St α} {k : Key} (hk : k ∈ c.path) (hr : ¬ c.refs k > 0) : c.lead < c.path.length := by
  unfold lead
  rw [List.findIdx_lt_length]
  exact ⟨k, hk, by simpa using hr⟩

/-- General termination. -/
theorem evicts_of_room {needed : Nat} : ∀ (w j : Nat) (c : St α), c.path.Nodup →
    c.memUse = total c.size c.path → needed ≤ c.maxMem - total c.size c.pinned →
    c.weight = w → c.lead = j → ∃ vs n c', Evicts needed c vs n c' := by
  intro w
  induction w using Nat.strongRecOn with
  | _ w ihw =>
    intro j
    induction j using Nat.strongRecOn with
    | _ j ihj =>
      intro c hn hm hroom hw hj
      cases hc : c.evictCond needed with
      | false => exact ⟨[], 0, c, .stop hc⟩
      | true =>
        obtain ⟨hne, hshort⟩ := evictCond_iff.mp hc
        obtain ⟨e1, e2, _, e4, _⟩ := evictIter_const c
        have hroom' : needed ≤ c.evictIter.maxMem - total c.evictIter.size c.evictIter.pinned := by
          rw [e4, e2, total_perm pinned_iter]; exact hroom
        cases hpath : c.path with
        | nil => exact absurd hpath hne
        | cons k rest =>
          rcases weight_step hn hpath with ⟨hr, h1, h2⟩ | ⟨_, h1⟩
          · -- some unpinned block exists further on
            have hex : ∃ x ∈ c.path, ¬ c.refs x > 0 := by
              by_cases hall : ∀ x ∈ c.path, c.refs x > 0
              · have : c.pinned = c.path := by
                  unfold pinned
                  rw [List.filter_eq_self]
                  intro x hx; simpa using hall x hx
                rw [this, ← hm] at hroom
                omega
              · simpa using hall
            obtain ⟨x, hx, hxr⟩ := hex
            have hlt := lead_lt hx hxr
            have hpos : c.lead = (rest.findIdx (fun k => decide (¬ c.refs k > 0))) + 1 := by
              unfold lead; rw [hpath, List.findIdx_cons]
              have hr' : ¬ c.refs k ≤ 0 := by omega
              simp [hr']
            have hnew : c.evictIter.lead = rest.findIdx (fun k => decide (¬ c.refs k > 0)) := by
              unfold lead
              rw [h2, e1, List.findIdx_append]
              rw [if_pos]
              rw [hpos, hpath] at hlt
              simpa using hlt
            obtain ⟨vs, n, c', h3⟩ := ihj c.evictIter.lead (by omega) c.evictIter (iter_nodup hn)
              (memUse_iter hm) hroom' (by omega) rfl
            obtain ⟨vs', h4⟩ := Evicts.cons hn hc h3
            exact ⟨vs', n + 1, c', h4⟩
          · obtain ⟨vs, n, c', h3⟩ := ihw c.evictIter.weight (by omega) c.evictIter.lead c.evictIter
              (iter_nodup hn) (memUse_iter hm) hroom' rfl rfl
            obtain ⟨vs', h4⟩ := Evicts.cons hn hc h3
            exact ⟨vs', n + 1, c', h4⟩

theorem Evicts.end_cond {needed : Nat} {c c' : St α} {vs : List Key} {n : Nat}
    (h : Evicts needed c vs n c') : c'.evictCond needed = false := by
  induction h with
  | stop h => exact h
  | turn _ _ _ ih => exact ih
  | free _ _ _ _ _ ih => exact ih

theorem Evicts.pins {needed : Nat} {c c' : St α} {vs : List Key} {n : Nat}
    (h : Evicts needed c vs n c') (hm : c.memUse = total c.size c.path) :
    c'.pinned.Perm c.pinned ∧ c'.memUse = total c'.size c'.path ∧ c'.size = c.size ∧ c'.maxMem = c.maxMem := by
  induction h with
  | stop h => exact ⟨List.Perm.refl _, hm, rfl, rfl⟩
  | @turn c c' vs n _ _ _ ih =>
    obtain ⟨i1, i2, i3, i4⟩ := ih (memUse_iter hm)
    obtain ⟨e1, e2, _, e4, _⟩ := evictIter_const c
    exact ⟨i1.trans pinned_iter, i2, by rw [i3, e2], by rw [i4, e4]⟩
  | @free c c' vs n _ _ _ _ _ ih =>
    obtain ⟨i1, i2, i3, i4⟩ := ih (memUse_iter hm)
    obtain ⟨e1, e2, _, e4, _⟩ := evictIter_const c
    exact ⟨i1.trans pinned_iter, i2, by rw [i3, e2], by rw [i4, e4]⟩

/-- Before each block is freed memory is short. -/
theorem Evicts.minimal {needed : Nat} {c c' : St α} {vs : List Key} {n : Nat}
    (h : Evicts needed c vs n c') (hn : c.path.Nodup) :
    ∀ p q, vs = p ++ q → q ≠ [] → c.maxMem - (c.memUse - total c.size p) < needed := by
  induction h with
  | stop h => intro p q he hq; simp at he; exact absurd he.2 hq
  | @turn c c' vs n hc hk _ ih =>
    intro p q he hq
    obtain ⟨v, hv⟩ := iterKind hn
    obtain ⟨e1, e2, _, e4, _⟩ := evictIter_const c
    cases hv with
    | keep h1 h2 h3 h4 =>
      have := ih h4 p q he hq
      rw [h3, e4, e2] at this; exact this
    | drop k h1 h2 h3 h4 _ => exact absurd (mem_list.mp (hk k (mem_list.mpr h2))) h3
  | @free c c' vs n k hc hk hk' hrun ih =>
    intro p q he hq
    obtain ⟨e1, e2, _, e4, _⟩ := evictIter_const c
    cases p with
    | nil =>
      have := (evictCond_iff.mp hc).2
      simp [total]; omega
    | cons a p =>
      simp only [List.cons_append, List.cons.injEq] at he
      obtain ⟨rfl, rfl⟩ := he
      have hi := ih (iter_nodup hn) p q rfl hq
      have hall := (Evicts.free k hc hk hk' hrun).nodup_order hn
      have htl := hrun.nodup_order (iter_nodup hn)
      have hmu : c.evictIter.memUse = c.memUse - c.size k := by
        have a := hall.2.2.1
        have b := htl.2.2.1
        rw [total_cons] at a
        rw [e2] at b
        omega
      rw [hmu, e4, e2] at hi
      rw [total_cons]
      omega

end St
end F3D.Cache

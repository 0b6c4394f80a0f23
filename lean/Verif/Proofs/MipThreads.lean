import Verif.Model.MipThreads
import Verif.Proofs.Resample

/-!
# Interleavings of the MIP threads
-/

namespace F3D
namespace MipThreads
open Resample

/-! ## Dense target -/

/-- The voxels a thread has left. -/
def Pc.todo : Pc → List V3i
  | .work _ l => l
  | _ => []

/-- The steps a thread has left, without those for blocks not yet taken. -/
def Pc.cost : Pc → ℕ
  | .fetch => 1
  | .work _ l => l.length + 2
  | .done => 0

def pend (th : List Pc) : List V3i := th.flatMap Pc.todo

def costs (th : List Pc) : ℕ := (th.map Pc.cost).sum

def blockCosts (blocks : List Box3i) : ℕ := (blocks.map fun b => (boxLoop b).length + 2).sum

theorem pend_set : ∀ (th : List Pc) (t : ℕ) (pc : Pc), th[t]? = some pc →
    ∃ rest, (pend th).Perm (pc.todo ++ rest) ∧ ∀ pc', (pend (th.set t pc')).Perm (Pc.todo pc' ++ rest)
  | [], _, _, h => by simp at h
  | a :: th, 0, pc, h => by
    simp at h; subst h
    exact ⟨pend th, List.Perm.refl _, fun pc' => List.Perm.refl _⟩
  | a :: th, t + 1, pc, h => by
    obtain ⟨rest, h1, h2⟩ := pend_set th t pc (by simpa using h)
    have key : ∀ l x : List V3i, x.Perm (l ++ rest) → (a.todo ++ x).Perm (l ++ (a.todo ++ rest)) := fun l x hx => by
      refine (List.Perm.append_left _ hx).trans ?_
      rw [← List.append_assoc, ← List.append_assoc]
      exact List.Perm.append_right _ List.perm_append_comm
    exact ⟨a.todo ++ rest, key _ _ h1, fun pc' => key _ _ (h2 pc')⟩

theorem costs_set : ∀ (th : List Pc) (t : ℕ) (pc : Pc), th[t]? = some pc →
    ∃ rest, costs th = pc.cost + rest ∧ ∀ pc', costs (th.set t pc') = Pc.cost pc' + rest
  | [], _, _, h => by simp at h
  | a :: th, 0, pc, h => by
    simp at h; subst h
    exact ⟨costs th, rfl, fun pc' => rfl⟩
  | a :: th, t + 1, pc, h => by
    obtain ⟨rest, h1, h2⟩ := costs_set th t pc (by simpa using h)
    refine ⟨a.cost + rest, ?_, fun pc' => ?_⟩
    · show a.cost + costs th = _
      omega
    · have := h2 pc'
      show a.cost + costs (th.set t pc') = _
      omega

/-- What holds in every reachable state. -/
structure Inv (blocks : List Box3i) (r : V3i → Option ℚ) (f : Dense ℚ) (n : ℕ) (s : State) : Prop where
  len : s.th.length = n
  wf : s.tgt.WF
  dw : s.tgt.dw = f.dw
  ext : s.tgt.extents = f.extents
  perm : (s.computed ++ (pend s.th ++ (blocks.drop s.next).flatMap boxLoop)).Perm (blocks.flatMap boxLoop)
  val : ∀ q, f.dw.contains q = true → s.tgt.value q = some (if q ∈ s.computed then (r q).getD 0 else 0)
  taken : s.taken.map Prod.snd = List.range (min s.next blocks.length)
  done : Pc.done ∈ s.th → blocks.length ≤ s.next

variable {blocks : List Box3i} {val : V3i → Option (Option ℚ)} {r : V3i → Option ℚ} {f : Dense ℚ} {n : ℕ}

theorem inv_init (wf : f.WF) (h0 : ∀ q, f.dw.contains q = true → f.value q = some 0) :
    Inv blocks r f n (State.init n f) := by
  refine ⟨by simp [State.init], wf, rfl, rfl, ?_, fun q hq => ?_, by simp [State.init], fun h => ?_⟩
  · have : pend (List.replicate n Pc.fetch) = [] := by
      unfold pend
      rw [List.flatMap_eq_nil_iff]
      intro x hx
      rw [List.mem_replicate] at hx
      rw [hx.2]; rfl
    simp [State.init, this]
  · simp [State.init, h0 q hq]
  · simp [State.init] at h

theorem drop_of {blocks : List Box3i} {i : ℕ} {b : Box3i} (h : blocks[i]? = some b) :
    blocks.drop i = b :: blocks.drop (i + 1) := by
  obtain ⟨hi, e⟩ := List.getElem?_eq_some_iff.1 h
  rw [List.drop_eq_getElem_cons hi, e]

theorem inv_step (hv : ∀ p ∈ blocks.flatMap boxLoop, f.dw.contains p = true ∧ val p = some (r p))
    {s : State} (h : Inv blocks r f n s) (t : ℕ) :
    ∃ s', s.step blocks val t = some s' ∧ Inv blocks r f n s' := by
  unfold State.step
  cases ht : s.th[t]? with
  | none => exact ⟨s, rfl, h⟩
  | some pc =>
    obtain ⟨rest, p1, p2⟩ := pend_set s.th t pc ht
    have htl : t < s.th.length := (List.getElem?_eq_some_iff.1 ht).1
    cases pc with
    | done => exact ⟨s, rfl, h⟩
    | fetch =>
      cases hb : blocks[s.next]? with
      | none =>
        refine ⟨_, rfl, ?_⟩
        have hle : blocks.length ≤ s.next := List.getElem?_eq_none_iff.1 hb
        refine ⟨by simp [h.len], h.wf, h.dw, h.ext, ?_, h.val, ?_, fun _ => by simp only; omega⟩
        · refine List.Perm.trans ?_ h.perm
          apply List.Perm.append_left
          simp only
          rw [List.drop_eq_nil_of_le (show blocks.length ≤ s.next + 1 by omega), List.drop_eq_nil_of_le hle]
          exact List.Perm.append_right _ ((p2 .done).trans p1.symm)
        · have := h.taken
          rw [Nat.min_eq_right hle] at this
          simp only
          rw [this, Nat.min_eq_right (by omega)]
      | some b =>
        refine ⟨_, rfl, ?_⟩
        have hlt : s.next < blocks.length := (List.getElem?_eq_some_iff.1 hb).1
        refine ⟨by simp [h.len], h.wf, h.dw, h.ext, ?_, h.val, ?_, fun hd => ?_⟩
        · refine List.Perm.trans ?_ h.perm
          apply List.Perm.append_left
          simp only
          rw [drop_of hb, List.flatMap_cons]
          refine (List.Perm.append_right _ (p2 (.work s.next (boxLoop b)))).trans ?_
          refine List.Perm.trans ?_ (List.Perm.append_right _ p1.symm)
          show (boxLoop b ++ rest ++ _).Perm (([] ++ rest) ++ _)
          rw [List.nil_append, ← List.append_assoc]
          exact List.Perm.append_right _ List.perm_append_comm
        · have := h.taken
          rw [Nat.min_eq_left (le_of_lt hlt)] at this
          simp only [List.map_append, List.map_cons, List.map_nil]
          rw [this, Nat.min_eq_left (show s.next + 1 ≤ blocks.length by omega), List.range_succ]
        · simp only at hd
          rcases List.mem_or_eq_of_mem_set hd with hd | hd
          · have := h.done hd; simp only; omega
          · cases hd
    | work i l =>
      cases l with
      | nil =>
        refine ⟨_, rfl, by simp [h.len], h.wf, h.dw, h.ext, ?_, h.val, h.taken, fun hd => ?_⟩
        · refine List.Perm.trans ?_ h.perm
          apply List.Perm.append_left
          exact List.Perm.append_right _ ((p2 .fetch).trans p1.symm)
        · rcases List.mem_or_eq_of_mem_set hd with hd | hd
          · exact h.done hd
          · cases hd
      | cons p l =>
        have hpm : p ∈ blocks.flatMap boxLoop := by
          apply h.perm.mem_iff.1
          rw [List.mem_append, List.mem_append]
          exact .inr (.inl (p1.mem_iff.2 (List.mem_append_left _ (List.mem_cons_self ..))))
        obtain ⟨hp, hvp⟩ := hv p hpm
        have hst : ∃ g, store s.tgt p (r p) = some g ∧ g.WF ∧ g.dw = f.dw ∧ g.extents = f.extents ∧
            ∀ q, f.dw.contains q = true → g.value q =
              if q = p then some (((r p).getD ((s.tgt.value q).getD 0))) else s.tgt.value q := by
          have hp' : s.tgt.dw.contains p = true := by rw [h.dw]; exact hp
          cases hr : r p with
          | none =>
            refine ⟨s.tgt, rfl, h.wf, h.dw, h.ext, fun q hq => ?_⟩
            split
            · rw [h.val q hq]; rfl
            · rfl
          | some x =>
            refine ⟨_, Dense.write_eq h.wf hp' x, Dense.wf_write h.wf _ _, h.dw, h.ext, fun q hq => ?_⟩
            rw [Dense.value_write h.wf hp' (by rw [h.dw]; exact hq)]
            rfl
        obtain ⟨g, eg, wg, dg, xg, vg⟩ := hst
        simp only [hvp, Option.bind_some, eg]
        refine ⟨_, rfl, by simp [h.len], wg, dg, xg, ?_, fun q hq => ?_, h.taken, fun hd => ?_⟩
        · refine List.Perm.trans ?_ h.perm
          simp only
          rw [List.append_assoc]
          apply List.Perm.append_left
          rw [← List.append_assoc]
          apply List.Perm.append_right
          refine (List.Perm.append_left _ (p2 (.work i l))).trans ?_
          exact p1.symm
        · simp only
          rw [vg q hq, h.val q hq]
          by_cases hqp : q = p
          · subst hqp
            rw [if_pos rfl, if_pos (List.mem_append_right _ (List.mem_singleton_self _))]
            cases hr : r q with
            | none =>
              by_cases hc : q ∈ s.computed
              · simp [hc]
              · simp [hc]
            | some x => rfl
          · rw [if_neg hqp]
            have : q ∈ s.computed ++ [p] ↔ q ∈ s.computed := by simp [hqp]
            simp only [this]
        · rcases List.mem_or_eq_of_mem_set hd with hd | hd
          · exact h.done hd
          · cases hd

theorem inv_run (hv : ∀ p ∈ blocks.flatMap boxLoop, f.dw.contains p = true ∧ val p = some (r p)) :
    ∀ (sched : List ℕ) (s : State), Inv blocks r f n s →
    ∃ s', State.run blocks val s sched = some s' ∧ Inv blocks r f n s'
  | [], s, h => ⟨s, rfl, h⟩
  | t :: l, s, h => by
    obtain ⟨s1, e1, h1⟩ := inv_step hv h t
    obtain ⟨s2, e2, h2⟩ := inv_run hv l s1 h1
    refine ⟨s2, ?_, h2⟩
    unfold State.run
    rw [e1]; exact e2

/-- What is left when all threads are finished. -/
theorem inv_finished {s : State} (h : Inv blocks r f n s) (hn : 0 < n) (hf : s.finished) :
    s.computed.Perm (blocks.flatMap boxLoop) ∧ s.taken.map Prod.snd = List.range blocks.length := by
  have hle : blocks.length ≤ s.next := by
    apply h.done
    have : 0 < s.th.length := by rw [h.len]; exact hn
    have hm : s.th[0] ∈ s.th := List.getElem_mem this
    rw [hf _ hm] at hm; exact hm
  have hp : pend s.th = [] := by
    unfold pend
    rw [List.flatMap_eq_nil_iff]
    intro x hx
    rw [hf x hx]; rfl
  refine ⟨?_, ?_⟩
  · have := h.perm
    rw [hp, List.drop_eq_nil_of_le hle] at this
    simpa using this
  · rw [h.taken, Nat.min_eq_right hle]

/-- The steps left. -/
def left (blocks : List Box3i) (s : State) : ℕ := costs s.th + blockCosts (blocks.drop s.next)

theorem left_step {s s' : State} {t : ℕ} (h : s.step blocks val t = some s') (ht : ∃ pc, s.th[t]? = some pc ∧ pc ≠ .done) :
    left blocks s = left blocks s' + 1 := by
  obtain ⟨pc, hpc, hne⟩ := ht
  obtain ⟨rest, c1, c2⟩ := costs_set s.th t pc hpc
  unfold State.step at h
  rw [hpc] at h
  unfold left
  cases pc with
  | done => exact absurd rfl hne
  | fetch =>
    cases hb : blocks[s.next]? with
    | none =>
      rw [hb] at h
      simp only [Option.some.injEq] at h
      subst h
      have hle : blocks.length ≤ s.next := List.getElem?_eq_none_iff.1 hb
      simp only
      rw [c1, c2, List.drop_eq_nil_of_le hle, List.drop_eq_nil_of_le (show blocks.length ≤ s.next + 1 by omega)]
      simp only [Pc.cost]; omega
    | some b =>
      rw [hb] at h
      simp only [Option.some.injEq] at h
      subst h
      simp only
      rw [c1, c2, drop_of hb]
      simp only [Pc.cost, blockCosts, List.map_cons, List.sum_cons]
      omega
  | work i l =>
    cases l with
    | nil =>
      simp only [Option.some.injEq] at h
      subst h
      simp only
      rw [c1, c2]
      simp only [Pc.cost, List.length_nil]; omega
    | cons p l =>
      simp only at h
      split at h
      · simp only [Option.some.injEq] at h
        subst h
        simp only
        rw [c1, c2]
        simp only [Pc.cost, List.length_cons]; omega
      · cases h

/-- Every step of the schedule is made by a thread that is not finished. -/
def Busy (blocks : List Box3i) (val : V3i → Option (Option ℚ)) : State → List ℕ → Prop
  | _, [] => True
  | s, t :: l => (∃ pc, s.th[t]? = some pc ∧ pc ≠ .done) ∧ ∀ s', s.step blocks val t = some s' → Busy blocks val s' l

theorem left_run : ∀ (sched : List ℕ) (s s' : State), Busy blocks val s sched →
    State.run blocks val s sched = some s' → left blocks s = left blocks s' + sched.length
  | [], s, s', _, h => by cases h; rfl
  | t :: l, s, s', hb, h => by
    unfold State.run at h
    cases e : s.step blocks val t with
    | none => rw [e] at h; cases h
    | some s1 =>
      rw [e] at h
      have h1 := left_step e hb.1
      have h2 := left_run l s1 s' (hb.2 s1 e) h
      simp only [List.length_cons]
      omega

theorem left_zero {s : State} (h : left blocks s = 0) : s.finished := by
  intro pc hpc
  have h0 : costs s.th = 0 := by unfold left at h; omega
  have : pc.cost ≤ costs s.th := by
    obtain ⟨t, ht⟩ := List.getElem?_of_mem hpc
    obtain ⟨rest, c1, _⟩ := costs_set s.th t pc ht
    omega
  cases pc with
  | done => rfl
  | fetch => simp [Pc.cost] at this; omega
  | work i l => simp [Pc.cost] at this; omega

theorem sum_const (k : ℕ) : ∀ m : ℕ, ((List.replicate m Pc.fetch).map Pc.cost).sum = m
  | 0 => rfl
  | m + 1 => by simp [Pc.cost]

theorem blockCosts_eq : ∀ blocks : List Box3i, blockCosts blocks = (blocks.flatMap boxLoop).length + 2 * blocks.length
  | [] => rfl
  | b :: l => by
    have := blockCosts_eq l
    unfold blockCosts at this ⊢
    simp only [List.map_cons, List.sum_cons, List.flatMap_cons, List.length_append, List.length_cons]
    omega

theorem left_init (f : Dense ℚ) (n : ℕ) : left blocks (State.init n f) =
    n + (blocks.flatMap boxLoop).length + 2 * blocks.length := by
  unfold left State.init costs
  rw [sum_const 0, List.drop_zero, blockCosts_eq]
  omega

/-! ## The blocks are disjoint -/

theorem starts_nodup (res : ℤ) (bs : ℕ) (hb : 0 < bs) : (starts res bs).Nodup := by
  unfold starts
  rw [List.nodup_iff_pairwise_ne, List.pairwise_map]
  apply List.Pairwise.imp _ (List.nodup_iff_pairwise_ne.1 List.nodup_range)
  intro a b h e
  have hb' : (bs : ℤ) ≠ 0 := by omega
  exact h (by exact_mod_cast mul_right_cancel₀ hb' e)

/-- The voxels of the blocks, in order of the list, are the voxels of the target, each once. -/
theorem workBlocks_nodup (res : V3i) (bs : ℕ) (hb : 0 < bs) : ((workBlocks res bs).flatMap boxLoop).Nodup := by
  have hax : ∀ (R : ℤ) (i i' x : ℤ), i ∈ starts R bs → i' ∈ starts R bs → i ≤ x → x ≤ min (i + ((bs : ℤ) - 1)) (R - 1) →
      i' ≤ x → x ≤ min (i' + ((bs : ℤ) - 1)) (R - 1) → i = i' := by
    intro R i i' x h1 h2 h3 h4 h5 h6
    obtain ⟨n, rfl, _⟩ := (mem_starts R bs hb i).1 h1
    have hn : (0 : ℤ) ≤ n * bs := by positivity
    have h0 : 0 ≤ x := by omega
    have hR : x < R := by have := le_trans h4 (min_le_right _ _); omega
    rw [(start_of R bs hb x h0 hR _).1 ⟨h1, h3, h4⟩, (start_of R bs hb x h0 hR _).1 ⟨h2, h5, h6⟩]
  rw [List.nodup_iff_pairwise_ne, List.pairwise_flatMap]
  refine ⟨fun b _ => List.nodup_iff_pairwise_ne.1 (boxLoop_nodup b), ?_⟩
  unfold workBlocks
  rw [List.pairwise_flatMap]
  refine ⟨fun k hk => ?_, ?_⟩
  · rw [List.pairwise_flatMap]
    refine ⟨fun j hj => ?_, ?_⟩
    · rw [List.pairwise_map]
      refine List.Pairwise.imp_of_mem ?_ (List.nodup_iff_pairwise_ne.1 (starts_nodup res.x bs hb))
      intro i i' hi hi' hne x hx y hy e
      subst e
      rw [mem_boxLoop, Box3i.contains_iff] at hx hy
      exact hne (hax res.x i i' x.x hi hi' hx.1.1 hx.1.2 hy.1.1 hy.1.2)
    · refine List.Pairwise.imp_of_mem ?_ (List.nodup_iff_pairwise_ne.1 (starts_nodup res.y bs hb))
      intro j j' hj hj' hne b hb1 b' hb2 x hx y hy e
      subst e
      rw [List.mem_map] at hb1 hb2
      obtain ⟨i, _, rfl⟩ := hb1
      obtain ⟨i', _, rfl⟩ := hb2
      rw [mem_boxLoop, Box3i.contains_iff] at hx hy
      exact hne (hax res.y j j' x.y hj hj' hx.2.1.1 hx.2.1.2 hy.2.1.1 hy.2.1.2)
  · refine List.Pairwise.imp_of_mem ?_ (List.nodup_iff_pairwise_ne.1 (starts_nodup res.z bs hb))
    intro k k' hk hk' hne b hb1 b' hb2 x hx y hy e
    subst e
    simp only [List.mem_flatMap, List.mem_map] at hb1 hb2
    obtain ⟨j, _, i, _, rfl⟩ := hb1
    obtain ⟨j', _, i', _, rfl⟩ := hb2
    rw [mem_boxLoop, Box3i.contains_iff] at hx hy
    exact hne (hax res.z k k' x.z hk hk' hx.2.2.1 hx.2.2.2 hy.2.2.1 hy.2.2.2)

end MipThreads
end F3D

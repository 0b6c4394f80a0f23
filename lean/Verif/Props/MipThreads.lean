import Verif.Proofs.MipSparse
import Verif.Proofs.MipPass

/-!
# C51: threaded MIP work is done exactly once
-/

namespace F3D
namespace Props
open Resample MipThreads

/-! ## Dense targets -/

/-- A voxel loop that succeeds has a value for each voxel. -/
theorem fill_vals (val : V3i → Option (Option ℚ)) : ∀ (l : List V3i) (f g : Dense ℚ), fill val l f = some g →
    ∀ p ∈ l, ∃ r, val p = some r
  | [], _, _, _, p, hp => by cases hp
  | q :: l, f, g, h, p, hp => by
    unfold fill at h
    cases hq : val q with
    | none => simp [hq] at h
    | some x =>
      rcases List.mem_cons.1 hp with e | hp
      · exact ⟨x, e ▸ hq⟩
      · rw [hq] at h
        cases hs : store f q x with
        | none => simp [hs] at h
        | some f' =>
          simp only [Option.bind_some, hs] at h
          exact fill_vals val l f' g h p hp

/-- The target after `setSize`. -/
theorem fresh_target {res : V3i} (hres : 0 < res.x ∧ 0 < res.y ∧ 0 < res.z) :
    ∃ f : Dense ℚ, Dense.setSize (0 : ℚ) (boxOf res) (boxOf res) = .ok f ∧ f.WF ∧ f.dw = boxOf res ∧
      f.extents = boxOf res ∧ ∀ q, (boxOf res).contains q = true → f.value q = some 0 := by
  obtain ⟨f, e, wf, ed, ee, edata⟩ := Dense.setSize_ok (dflt := (0 : ℚ)) (e := boxOf res) (boxOf_ne hres)
  refine ⟨f, e, wf, ed, ee, fun q hq => ?_⟩
  have hq' : f.dw.contains q = true := ed ▸ hq
  obtain ⟨v, hv⟩ := Dense.value_isSome wf hq'
  rw [hv]
  rw [Dense.value_eq wf hq', edata] at hv
  obtain ⟨_, h2⟩ := List.getElem?_eq_some_iff.1 hv
  rw [List.getElem_replicate] at h2
  rw [h2]

/-- What the runs of a pass have in common. -/
theorem threaded_inv {flt : Filter} {src : Dense ℚ} {oldRes newRes add : V3i} {a : Axis}
    (hres : 0 < (passRes a oldRes newRes).x ∧ 0 < (passRes a oldRes newRes).y ∧ 0 < (passRes a oldRes newRes).z)
    {g : Dense ℚ} (hg : mipSeparable flt src oldRes newRes add a = .ok g) :
    ∃ (f : Dense ℚ) (r : V3i → Option ℚ), f.dw = boxOf (passRes a oldRes newRes) ∧
      g.dw = f.dw ∧ g.extents = f.extents ∧
      (∀ q, f.dw.contains q = true → g.value q = some ((r q).getD 0)) ∧
      ∀ n sched, ∃ s, threaded flt src oldRes newRes add a n sched = some s ∧
        State.run (workBlocks (passRes a oldRes newRes) 16) (mipValue flt src.dw src.value add a) (State.init n f) sched =
          some s ∧
        Inv (workBlocks (passRes a oldRes newRes) 16) r f n s := by
  obtain ⟨f, ef, wf, ed, ee, h0⟩ := fresh_target hres
  unfold mipSeparable sized at hg
  simp only [ef] at hg
  cases hfill : fill (mipValue flt src.dw src.value add a) ((workBlocks (passRes a oldRes newRes) 16).flatMap boxLoop) f with
  | none => rw [hfill] at hg; cases hg
  | some g' =>
    rw [hfill] at hg
    cases hg
    have hvals := fill_vals _ _ _ _ hfill
    have hv : ∀ p ∈ (workBlocks (passRes a oldRes newRes) 16).flatMap boxLoop, f.dw.contains p = true ∧
        mipValue flt src.dw src.value add a p = some ((mipValue flt src.dw src.value add a p).getD none) := by
      intro p hp
      refine ⟨?_, ?_⟩
      · rw [ed]; exact (mem_workBlocks _ 16 (by omega) p).1 hp
      · obtain ⟨x, hx⟩ := hvals p hp
        rw [hx]; rfl
    refine ⟨f, fun p => (mipValue flt src.dw src.value add a p).getD none, ed, ?_⟩
    obtain ⟨g2, e2, wg, dg, xg, v1, v2⟩ := fill_spec _ _ _ f wf hv
    rw [hfill] at e2
    cases e2
    refine ⟨dg, xg, fun q hq => ?_, fun n sched => ?_⟩
    · have hm : q ∈ (workBlocks (passRes a oldRes newRes) 16).flatMap boxLoop :=
        (mem_workBlocks _ 16 (by omega) q).2 (ed ▸ hq)
      cases hr : (mipValue flt src.dw src.value add a q).getD none with
      | none => rw [v2 q hq (.inr hr), h0 q (ed ▸ hq)]; simp [hr]
      | some x => rw [v1 q hq hm x hr]; simp [hr]
    · obtain ⟨s, es, hs⟩ := inv_run hv sched _ (inv_init (n := n) wf fun q hq => h0 q (ed ▸ hq))
      refine ⟨s, ?_, es, hs⟩
      unfold threaded
      simp only [ef]
      exact es

/-- Whatever the number of threads and their interleaving, a pass that succeeds one block after the other never reads or
writes outside the fields, and when all threads have ended the target is the same as with one block after the other. -/
theorem C51_schedule_independent (flt : Filter) (src : Dense ℚ) (oldRes newRes add : V3i) (a : Axis)
    (hres : 0 < (passRes a oldRes newRes).x ∧ 0 < (passRes a oldRes newRes).y ∧ 0 < (passRes a oldRes newRes).z)
    (g : Dense ℚ) (hg : mipSeparable flt src oldRes newRes add a = .ok g)
    (threads : ℕ) (ht : 0 < threads) (sched : List ℕ) :
    ∃ s, threaded flt src oldRes newRes add a threads sched = some s ∧
      (s.finished → s.tgt.dw = g.dw ∧ s.tgt.extents = g.extents ∧
        ∀ p, g.dw.contains p = true → s.tgt.value p = g.value p) := by
  obtain ⟨f, r, ed, dg, xg, hgv, h⟩ := threaded_inv hres hg
  obtain ⟨s, es, _, hs⟩ := h threads sched
  refine ⟨s, es, fun hf => ⟨by rw [hs.dw, dg], by rw [hs.ext, xg], fun p hp => ?_⟩⟩
  rw [dg] at hp
  rw [hs.val p hp, hgv p hp, if_pos]
  rw [(inv_finished hs ht hf).1.mem_iff, mem_workBlocks _ 16 (by omega), ← ed]
  exact hp

/-- When all threads have ended, every work block was taken exactly once, by one thread, and every voxel of the target was
computed exactly once. At any time before, no block was taken and no voxel computed twice. -/
theorem C51_each_once (flt : Filter) (src : Dense ℚ) (oldRes newRes add : V3i) (a : Axis)
    (hres : 0 < (passRes a oldRes newRes).x ∧ 0 < (passRes a oldRes newRes).y ∧ 0 < (passRes a oldRes newRes).z)
    (g : Dense ℚ) (hg : mipSeparable flt src oldRes newRes add a = .ok g) (threads : ℕ) (sched : List ℕ) (s : State)
    (hs : threaded flt src oldRes newRes add a threads sched = some s) :
    (s.taken.map Prod.snd).Nodup ∧ s.computed.Nodup ∧
    (∀ p ∈ s.computed, (boxOf (passRes a oldRes newRes)).contains p = true) ∧
    (0 < threads → s.finished →
      (∀ i, i ∈ s.taken.map Prod.snd ↔ i < (workBlocks (passRes a oldRes newRes) 16).length) ∧
      ∀ p, p ∈ s.computed ↔ (boxOf (passRes a oldRes newRes)).contains p = true) := by
  obtain ⟨f, r, ed, dg, xg, hgv, h⟩ := threaded_inv hres hg
  obtain ⟨s', es, _, hi⟩ := h threads sched
  rw [hs] at es
  cases es
  have hnd := hi.perm.nodup_iff.2 (workBlocks_nodup _ 16 (by omega))
  refine ⟨?_, (List.nodup_append.1 hnd).1, fun p hp => ?_, fun ht hf => ⟨fun i => ?_, fun p => ?_⟩⟩
  · rw [hi.taken]; exact List.nodup_range
  · rw [← mem_workBlocks _ 16 (by omega)]
    exact hi.perm.mem_iff.1 (List.mem_append_left _ hp)
  · rw [(inv_finished hi ht hf).2, List.mem_range]
  · rw [(inv_finished hi ht hf).1.mem_iff, mem_workBlocks _ 16 (by omega)]

/-- Threads that are not finished can always go on, and after a number of steps that does not depend on the schedule all of
them are finished: one for each voxel, two for each block and one for each thread. -/
theorem C51_terminates (flt : Filter) (src : Dense ℚ) (oldRes newRes add : V3i) (a : Axis)
    (hres : 0 < (passRes a oldRes newRes).x ∧ 0 < (passRes a oldRes newRes).y ∧ 0 < (passRes a oldRes newRes).z)
    (g : Dense ℚ) (hg : mipSeparable flt src oldRes newRes add a = .ok g) (threads : ℕ) (ht : 0 < threads) :
    ∃ f, Dense.setSize (0 : ℚ) (boxOf (passRes a oldRes newRes)) (boxOf (passRes a oldRes newRes)) = .ok f ∧
      ∀ sched s, Busy (workBlocks (passRes a oldRes newRes) 16) (mipValue flt src.dw src.value add a)
          (State.init threads f) sched → threaded flt src oldRes newRes add a threads sched = some s →
        let total := threads + (boxLoop (boxOf (passRes a oldRes newRes))).length +
          2 * (workBlocks (passRes a oldRes newRes) 16).length
        sched.length ≤ total ∧ (s.finished ↔ sched.length = total) := by
  obtain ⟨f, ef, _⟩ := fresh_target hres
  refine ⟨f, ef, fun sched s hb hs => ?_⟩
  have hs' := hs
  unfold threaded at hs'
  simp only [ef] at hs'
  have h := left_run sched _ s hb hs'
  rw [left_init] at h
  have hlen : ((workBlocks (passRes a oldRes newRes) 16).flatMap boxLoop).length =
      (boxLoop (boxOf (passRes a oldRes newRes))).length := by
    apply List.Perm.length_eq
    rw [List.perm_ext_iff_of_nodup (workBlocks_nodup _ 16 (by omega)) (boxLoop_nodup _)]
    intro p
    rw [mem_workBlocks _ 16 (by omega), mem_boxLoop]
  rw [hlen] at h
  simp only
  refine ⟨by omega, fun hf => ?_, fun he => left_zero (blocks := workBlocks (passRes a oldRes newRes) 16) (by omega)⟩
  obtain ⟨f', r, ed, dg, xg, hgv, h'⟩ := threaded_inv hres hg
  obtain ⟨s', es, _, hi⟩ := h' threads sched
  rw [hs] at es
  cases es
  have hle : (workBlocks (passRes a oldRes newRes) 16).length ≤ s.next := by
    apply hi.done
    have h0 : 0 < s.th.length := by rw [hi.len]; exact ht
    have hm : s.th[0] ∈ s.th := List.getElem_mem h0
    rw [hf _ hm] at hm; exact hm
  have hz : left (workBlocks (passRes a oldRes newRes) 16) s = 0 := by
    unfold left
    rw [List.drop_eq_nil_of_le hle]
    have : ∀ th : List Pc, (∀ pc ∈ th, pc = Pc.done) → costs th = 0 := by
      intro th
      induction th with
      | nil => intro _; rfl
      | cons x l ih =>
        intro hx
        have h1 := ih fun pc hpc => hx pc (List.mem_cons_of_mem _ hpc)
        have h2 := hx x (List.mem_cons_self ..)
        subst h2
        show 0 + costs l = 0
        omega
    rw [this s.th hf]; rfl
  omega

/-- With no threads at all nothing fails, and the level consists of zeros. -/
theorem C51_no_threads (flt : Filter) (src : Dense ℚ) (oldRes newRes add : V3i) (a : Axis)
    (hres : 0 < (passRes a oldRes newRes).x ∧ 0 < (passRes a oldRes newRes).y ∧ 0 < (passRes a oldRes newRes).z) :
    ∃ s, threaded flt src oldRes newRes add a 0 [] = some s ∧ s.finished ∧
      ∀ p, (boxOf (passRes a oldRes newRes)).contains p = true → s.tgt.value p = some 0 := by
  obtain ⟨f, ef, _, _, _, h0⟩ := fresh_target hres
  refine ⟨State.init 0 f, ?_, ?_, h0⟩
  · unfold threaded; simp only [ef]; rfl
  · intro pc hpc; cases hpc

/-- A field of 20 by 1 by 1 voxels with values 0, 1, 2, ... -/
def threadSrc : Dense ℚ :=
  ⟨⟨⟨0, 0, 0⟩, ⟨39, 0, 0⟩⟩, ⟨⟨0, 0, 0⟩, ⟨39, 0, 0⟩⟩, 40, 40, (List.range 40).map fun n => (n : ℚ)⟩

/-- The pass from 40 to 20 voxels has two work blocks and succeeds. -/
example : (workBlocks (passRes .x ⟨40, 1, 1⟩ ⟨20, 1, 1⟩) 16).length = 2 ∧
    (match mipSeparable (boxFilter 1) threadSrc ⟨40, 1, 1⟩ ⟨20, 1, 1⟩ ⟨0, 0, 0⟩ .x with
      | .ok g => g.value ⟨17, 0, 0⟩ == some (69 / 2)
      | _ => false) = true := by decide +kernel

/-- Two threads that alternate are finished after 26 steps. -/
example : (match threaded (boxFilter 1) threadSrc ⟨40, 1, 1⟩ ⟨20, 1, 1⟩ ⟨0, 0, 0⟩ .x 2
      ((List.replicate 6 [0, 1]).flatten ++ List.replicate 13 0 ++ [1]) with
    | some s => decide (s.th = [.done, .done]) && decide (s.taken = [(0, 0), (1, 1)]) &&
        (s.tgt.value ⟨17, 0, 0⟩ == some (69 / 2))
    | none => false) = true := by decide +kernel

/-! ## Sparse targets -/

/-- A sparse field after `setSize(res)` of a default constructed field, with blocks of 16 voxels. -/
def sparseTarget (res : V3i) : Sparse ℚ := (Sparse.empty 0).setSize 0 (boxOf res) (boxOf res)

theorem sparseTarget_wf {res : V3i} (hres : 0 < res.x ∧ 0 < res.y ∧ 0 < res.z)
    (hfit : res.x ≤ 2 ^ 24 ∧ res.y ≤ 2 ^ 24 ∧ res.z ≤ 2 ^ 24) : (sparseTarget res).WF := by
  unfold sparseTarget Sparse.setSize
  refine (Sparse.setupBlocks_wf ?_ ?_).1
  · exact boxOf_ne hres
  · simp only [Sparse.Fits, Box3i.nx, Box3i.ny, Box3i.nz, Box3i.res, boxOf, V3i.all, V3i.sub_x, V3i.sub_y, V3i.sub_z,
      V3i.add_x, V3i.add_y, V3i.add_z]
    omega

/-- One axis: voxels of the same target block are in the same work block. -/
theorem axis_same (R : ℤ) (o : ℕ) (ho : 4 ≤ o) (i x y : ℤ) (hi : i ∈ starts R (2 ^ o)) (h1 : i ≤ x)
    (h2 : x ≤ min (i + (((2 ^ o : ℕ) : ℤ) - 1)) (R - 1)) (hy0 : 0 ≤ y) (hyR : y < R) (e : x / 16 = y / 16) :
    i ≤ y ∧ y ≤ min (i + (((2 ^ o : ℕ) : ℤ) - 1)) (R - 1) := by
  have hb : 0 < 2 ^ o := Nat.two_pow_pos o
  obtain ⟨n, hn, _⟩ := (mem_starts R _ hb i).1 hi
  have hn0 : (0 : ℤ) ≤ n * (2 ^ o : ℕ) := by positivity
  have hx0 : 0 ≤ x := by omega
  have hxR : x < R := by have := le_trans h2 (min_le_right _ _); omega
  have hs := (start_of R _ hb x hx0 hxR i).1 ⟨hi, h1, h2⟩
  have key : x / ((2 ^ o : ℕ) : ℤ) = y / ((2 ^ o : ℕ) : ℤ) := by
    obtain ⟨k, rfl⟩ : ∃ k, o = 4 + k := ⟨o - 4, by omega⟩
    have : ((2 ^ (4 + k) : ℕ) : ℤ) = 16 * ((2 ^ k : ℕ) : ℤ) := by rw [pow_add]; push_cast; ring
    rw [this, ← Int.ediv_ediv_of_nonneg (by omega), ← Int.ediv_ediv_of_nonneg (by omega), e]
  rw [key] at hs
  exact ((start_of R _ hb y hy0 hyR i).2 hs).2

theorem block_same {res : V3i} {o : ℕ} (ho : 4 ≤ o) {b : Box3i} (hb : b ∈ workBlocks res (2 ^ o)) {p q : V3i}
    (hp : p ∈ boxLoop b) (hq : (boxOf res).contains q = true)
    (e : p.x / 16 = q.x / 16 ∧ p.y / 16 = q.y / 16 ∧ p.z / 16 = q.z / 16) : q ∈ boxLoop b := by
  rw [boxOf_contains] at hq
  simp only [workBlocks, List.mem_flatMap, List.mem_map] at hb
  obtain ⟨k, hk, j, hj, i, hi, rfl⟩ := hb
  rw [mem_boxLoop, Box3i.contains_iff] at hp ⊢
  simp only at hp ⊢
  have hx := axis_same res.x o ho i p.x q.x hi hp.1.1 hp.1.2 hq.1 hq.2.1 e.1
  have hy := axis_same res.y o ho j p.y q.y hj hp.2.1.1 hp.2.1.2 hq.2.2.1 hq.2.2.2.1 e.2.1
  have hz := axis_same res.z o ho k p.z q.z hk hp.2.2.1 hp.2.2.2 hq.2.2.2.2.1 hq.2.2.2.2.2 e.2.2
  exact ⟨hx, hy, hz⟩

theorem sparse_id_iff {res : V3i} (hres : 0 < res.x ∧ 0 < res.y ∧ 0 < res.z)
    (hfit : res.x ≤ 2 ^ 24 ∧ res.y ≤ 2 ^ 24 ∧ res.z ≤ 2 ^ 24) {p q : V3i} (hp : (boxOf res).contains p = true)
    (hq : (boxOf res).contains q = true) :
    (sparseTarget res).idN p = (sparseTarget res).idN q ↔
      p.x / 16 = q.x / 16 ∧ p.y / 16 = q.y / 16 ∧ p.z / 16 = q.z / 16 := by
  have wf := sparseTarget_wf hres hfit
  rw [Sparse.idN_eq_iff wf (by exact hp) (by exact hq)]
  rw [boxOf_contains] at hp hq
  have hdw : (sparseTarget res).dw = boxOf res := rfl
  have ho : (sparseTarget res).order = 4 := rfl
  simp only [Sparse.rx, Sparse.ry, Sparse.rz, hdw, ho, boxOf, V3i.all]
  have h16 : (2 : ℕ) ^ 4 = 16 := by norm_num
  rw [h16]
  omega

/-- If the blocks of the source have at least 16 voxels on a side, voxels in the same block of the target are in the same
work block, so that each block of the target is touched by one thread only. -/
theorem C51_sparse_blocks_owned (res : V3i) (hres : 0 < res.x ∧ 0 < res.y ∧ 0 < res.z)
    (hfit : res.x ≤ 2 ^ 24 ∧ res.y ≤ 2 ^ 24 ∧ res.z ≤ 2 ^ 24) (o : ℕ) (ho : 4 ≤ o) (b b' : Box3i)
    (hb : b ∈ workBlocks res (2 ^ o)) (hb' : b' ∈ workBlocks res (2 ^ o)) (p q : V3i) (hp : b.contains p = true)
    (hq : b'.contains q = true)
    (e : (writeAt (sparseTarget res) p 0).block = (writeAt (sparseTarget res) q 0).block) :
    b.contains q = true ∧ b'.contains p = true := by
  have hp' : (boxOf res).contains p = true :=
    (mem_workBlocks res _ (Nat.two_pow_pos o) p).1 (List.mem_flatMap.2 ⟨b, hb, (mem_boxLoop _ _).2 hp⟩)
  have hq' : (boxOf res).contains q = true :=
    (mem_workBlocks res _ (Nat.two_pow_pos o) q).1 (List.mem_flatMap.2 ⟨b', hb', (mem_boxLoop _ _).2 hq⟩)
  have wf := sparseTarget_wf hres hfit
  simp only [writeAt, Sparse.id_eq wf (show (sparseTarget res).dw.contains p = true from hp'),
    Sparse.id_eq wf (show (sparseTarget res).dw.contains q = true from hq'), Int.toNat_natCast] at e
  have e' := (sparse_id_iff hres hfit hp' hq').1 e
  refine ⟨(mem_boxLoop _ _).1 (block_same ho hb ((mem_boxLoop _ _).2 hp) hq' e'),
    (mem_boxLoop _ _).1 (block_same ho hb' ((mem_boxLoop _ _).2 hq) hp' ?_)⟩
  exact ⟨e'.1.symm, e'.2.1.symm, e'.2.2.symm⟩

/-- Sparse fields whose source blocks have at least 16 voxels on a side: however the work blocks are distributed over
threads, each to one thread, and however the threads interleave, storing is always defined, and when all threads have ended
every voxel has the value computed for it. New memory may hold anything. -/
theorem C51_sparse (res : V3i) (hres : 0 < res.x ∧ 0 < res.y ∧ 0 < res.z)
    (hfit : res.x ≤ 2 ^ 24 ∧ res.y ≤ 2 ^ 24 ∧ res.z ≤ 2 ^ 24) (o : ℕ) (ho : 4 ≤ o) (mine : List (List Box3i))
    (hmine : mine.flatten.Perm (workBlocks res (2 ^ o))) (r : V3i → Option ℚ) (junk : ℚ) (sched : List ℕ) :
    ∃ s, SState.run (16 * 16 * 16) junk (SState.start (sparseTarget res) mine r) sched = some s ∧
      (s.finished → ∀ p, (boxOf res).contains p = true →
        ({ sparseTarget res with blocks := s.blocks } : Sparse ℚ).value p = some ((r p).getD 0)) := by
  have wf := sparseTarget_wf hres hfit
  generalize hf : sparseTarget res = f at *
  have hdw : f.dw = boxOf res := by rw [← hf]; rfl
  have hvol : f.bvol = 16 * 16 * 16 := by rw [← hf]; rfl
  have hfresh : ∀ b ∈ f.blocks, b = Block.fresh 0 := by
    rw [← hf]; intro b hb; exact (List.mem_replicate.1 hb).2
  have hw : ∀ p v, (boxOf res).contains p = true → writeAt f p v = ⟨f.idN p, f.offN p, v⟩ := by
    intro p v hp
    have hp' : f.dw.contains p = true := hdw ▸ hp
    simp only [writeAt, Sparse.id_eq wf hp', Sparse.off_eq hp', Int.toNat_natCast]
  have hin : ∀ l ∈ mine, ∀ b ∈ l, b ∈ workBlocks res (2 ^ o) := fun l hl b hb =>
    hmine.mem_iff.1 (List.mem_flatten.2 ⟨l, hl, hb⟩)
  have hbox : ∀ l ∈ mine, ∀ b ∈ l, ∀ p ∈ boxLoop b, (boxOf res).contains p = true := fun l hl b hb p hp =>
    (mem_workBlocks res _ (Nat.two_pow_pos o) p).1 (List.mem_flatMap.2 ⟨b, hin l hl b hb, hp⟩)
  -- voxels of different threads are in different target blocks
  have hnd : (mine.flatten.flatMap boxLoop).Nodup :=
    ((hmine.flatMap_right boxLoop).nodup_iff).2 (workBlocks_nodup res _ (Nat.two_pow_pos o))
  rw [List.nodup_iff_pairwise_ne, List.pairwise_flatMap, List.pairwise_flatten] at hnd
  have hpw := hnd.2.2
  let has : ℕ → List Box3i → Bool := fun i l => l.any fun b => (boxLoop b).any fun p => f.idN p == i
  have hhas : ∀ i l, has i l = true ↔ ∃ b ∈ l, ∃ p ∈ boxLoop b, f.idN p = i := by
    intro i l; simp [has]
  let owner : ℕ → ℕ := fun i => mine.findIdx (has i)
  have howner : ∀ (t : ℕ) (l : List Box3i), mine[t]? = some l → ∀ b ∈ l, ∀ p ∈ boxLoop b, owner (f.idN p) = t := by
    intro t l hl b hb p hp
    obtain ⟨htl, he⟩ := List.getElem?_eq_some_iff.1 hl
    rw [List.findIdx_eq htl]
    refine ⟨(hhas _ _).2 ⟨b, he ▸ hb, p, hp, rfl⟩, fun t' ht' => ?_⟩
    rw [Bool.eq_false_iff]
    intro hc
    obtain ⟨b', hb', p', hp', e⟩ := (hhas _ _).1 hc
    have hm' : mine[t'] ∈ mine := List.getElem_mem _
    have hm : mine[t] ∈ mine := List.getElem_mem _
    have e' := (sparse_id_iff hres hfit (hbox _ hm' b' hb' p' hp') (hbox _ hm b (he ▸ hb) p hp)).1 (by rw [hf]; exact e)
    have hpb' := block_same ho (hin _ hm' b' hb') hp' (hbox _ hm b (he ▸ hb) p hp) e'
    have := List.pairwise_iff_getElem.1 hpw t' t (by omega) htl ht' b' hb' b (he ▸ hb) p hpb' p hp
    exact this rfl
  obtain ⟨s, es, hs⟩ := sinv_run (owner := owner) junk sched _ (sinv_init (owner := owner) (size := 16 * 16 * 16)
    (blocks := f.blocks) (jobs := mine.map fun l => (l.flatMap boxLoop).filterMap fun p => (r p).map (writeAt f p))
    (fun b hb => hvol ▸ wf.blk b hb) (by
      intro t l hl w hwl
      rw [List.getElem?_map, Option.map_eq_some_iff] at hl
      obtain ⟨bl, hbl, rfl⟩ := hl
      simp only [List.mem_filterMap, List.mem_flatMap, Option.map_eq_some_iff] at hwl
      obtain ⟨p, ⟨b, hb, hp⟩, x, hx, rfl⟩ := hwl
      have hpb := hbox bl (List.mem_of_getElem? hbl) b hb p hp
      rw [hw p x hpb]
      refine ⟨Sparse.idN_lt wf (hdw ▸ hpb), ?_, howner t bl hbl b hb p hp⟩
      have := Sparse.offN_lt f p
      rw [hvol] at this
      exact this))
  refine ⟨s, ?_, fun hfin p hp => ?_⟩
  · unfold SState.start
    rw [← es, List.map_map]
    rfl
  · have hp' : f.dw.contains p = true := hdw ▸ hp
    have wf' : ({ f with blocks := s.blocks } : Sparse ℚ).WF := by
      refine ⟨wf.ne, wf.bx, wf.by', wf.bz, wf.bxy, ?_, fun b hb => ?_⟩
      · exact hs.len.trans wf.len
      · obtain ⟨i, hi⟩ := List.getElem?_of_mem hb
        have := (sinv_finished hs hfin i b hi).1
        rw [← hvol] at this
        exact this
    rw [Sparse.value_eq wf' (by exact hp')]
    have e1 : ({ f with blocks := s.blocks } : Sparse ℚ).idN p = f.idN p := rfl
    have e2 : ({ f with blocks := s.blocks } : Sparse ℚ).offN p = f.offN p := rfl
    rw [e1, e2]
    have hlt : f.idN p < f.blocks.length := Sparse.idN_lt wf hp'
    have hlt' : f.idN p < s.blocks.length := by rw [hs.len]; exact hlt
    rw [List.getElem?_eq_getElem hlt']
    simp only [Option.bind_some]
    have hoff : f.offN p < 16 * 16 * 16 := by
      have := Sparse.offN_lt f p
      rw [hvol] at this
      exact this
    rw [(sinv_finished hs hfin _ _ (List.getElem?_eq_getElem hlt')).2 _ hoff, List.getElem?_eq_getElem hlt,
      hfresh _ (List.getElem_mem hlt)]
    -- the work block and the thread of the voxel
    obtain ⟨b, hb, hpb⟩ := List.mem_flatMap.1 ((mem_workBlocks res _ (Nat.two_pow_pos o) p).2 hp)
    obtain ⟨l, hl, hbl⟩ := List.mem_flatten.1 (hmine.mem_iff.2 hb)
    obtain ⟨t, ht⟩ := List.getElem?_of_mem hl
    have hot := howner t l ht b hbl p hpb
    rw [hot, List.getElem?_map, ht]
    simp only [Option.map_some, Option.getD_some, Option.bind_some]
    have hsame : ∀ w ∈ (l.flatMap boxLoop).filterMap (fun p => (r p).map (writeAt f p)),
        w.block = f.idN p ∧ w.off = f.offN p → r p = some w.v := by
      intro w hwl hwe
      simp only [List.mem_filterMap, List.mem_flatMap, Option.map_eq_some_iff] at hwl
      obtain ⟨q, ⟨b', hb', hq⟩, x, hx, rfl⟩ := hwl
      have hqb := hbox l hl b' hb' q hq
      rw [hw q x hqb] at hwe ⊢
      have := Sparse.addr_inj wf (hdw ▸ hqb) hp' hwe.1 hwe.2
      rw [← this]; exact hx
    cases hr : r p with
    | none =>
      rw [finalOf_absent]
      · rfl
      · intro w hwl hwe
        have := hsame w hwl hwe
        rw [hr] at this; cases this
    | some x =>
      rw [finalOf_unique _ _ _ x]
      · rfl
      · intro w hwl hwe
        have := hsame w hwl hwe
        rw [hr] at this
        exact (Option.some.inj this).symm
      · refine ⟨writeAt f p x, ?_, ?_⟩
        · simp only [List.mem_filterMap, List.mem_flatMap, Option.map_eq_some_iff]
          exact ⟨p, ⟨b, hbl, hpb⟩, x, hr, rfl⟩
        · rw [hw p x hp]; exact ⟨rfl, rfl⟩

/-- Two threads with a block each, which alternate, and a target with two blocks. -/
example : (match SState.run (16 * 16 * 16) 99 (SState.start (sparseTarget ⟨20, 1, 1⟩)
      [[⟨⟨0, 0, 0⟩, ⟨15, 0, 0⟩⟩], [⟨⟨16, 0, 0⟩, ⟨19, 0, 0⟩⟩]]
      fun p => if p.x = 3 ∨ p.x = 17 then some p.x else none) [0, 1, 0, 1, 0, 1, 1, 0] with
    | some s => decide (∀ th ∈ s.th, th.todo = []) && decide (s.blocks.length = 2) &&
        (s.blocks.map fun b => b.data.bind (·[3]?)) == [some 3, some 0]
    | none => false) = true := by decide +kernel

example : [[(⟨⟨0, 0, 0⟩, ⟨15, 0, 0⟩⟩ : Box3i)], [⟨⟨16, 0, 0⟩, ⟨19, 0, 0⟩⟩]].flatten = workBlocks ⟨20, 1, 1⟩ (2 ^ 4) := by
  decide +kernel

/-- If the blocks of the source are smaller than 16 voxels, there are voxels of one target block in different work blocks:
all it takes is a target with more voxels on an axis than a source block. -/
theorem C51_sparse_blocks_shared (res : V3i) (hres : 0 < res.x ∧ 0 < res.y ∧ 0 < res.z)
    (hfit : res.x ≤ 2 ^ 24 ∧ res.y ≤ 2 ^ 24 ∧ res.z ≤ 2 ^ 24) (o : ℕ) (ho : o < 4) (hx : 2 ^ o < res.x) :
    ∃ b ∈ workBlocks res (2 ^ o), ∃ b' ∈ workBlocks res (2 ^ o), ∃ p q, b.contains p = true ∧ b'.contains q = true ∧
      b.contains q = false ∧ b'.contains p = false ∧
      (writeAt (sparseTarget res) p 0).block = (writeAt (sparseTarget res) q 0).block := by
  have hb : 0 < 2 ^ o := Nat.two_pow_pos o
  have hb2 : 2 ^ o < 16 := by
    have : 2 ^ o < 2 ^ 4 := Nat.pow_lt_pow_right (by omega) ho
    simpa using this
  have hx' : ((2 ^ o : ℕ) : ℤ) < res.x := by push_cast; exact hx
  generalize hB : 2 ^ o = B at *
  have hp : (boxOf res).contains ⟨(B : ℤ) - 1, 0, 0⟩ = true := by rw [boxOf_contains]; simp only; omega
  have hq : (boxOf res).contains ⟨(B : ℤ), 0, 0⟩ = true := by rw [boxOf_contains]; simp only; omega
  obtain ⟨b, hbm, hpb⟩ := List.mem_flatMap.1 ((mem_workBlocks res B hb _).2 hp)
  obtain ⟨b', hbm', hqb⟩ := List.mem_flatMap.1 ((mem_workBlocks res B hb _).2 hq)
  refine ⟨b, hbm, b', hbm', _, _, (mem_boxLoop _ _).1 hpb, (mem_boxLoop _ _).1 hqb, ?_, ?_, ?_⟩
  · rw [mem_boxLoop, Box3i.contains_iff] at hpb
    rw [Bool.eq_false_iff]
    intro hc
    rw [Box3i.contains_iff] at hc
    simp only [workBlocks, List.mem_flatMap, List.mem_map] at hbm
    obtain ⟨k, hk, j, hj, i, hi, rfl⟩ := hbm
    simp only at hpb hc
    obtain ⟨n, hn, _⟩ := (mem_starts _ B hb i).1 hi
    have h1 := hpb.1.1
    have h2 := le_trans hc.1.2 (min_le_left _ _)
    have hn0 : n = 0 := by
      by_contra h
      have : (B : ℤ) ≤ n * B := by
        have h1 : (1 : ℤ) ≤ n := by omega
        nlinarith
      omega
    subst hn0
    simp at hn
    omega
  · rw [mem_boxLoop, Box3i.contains_iff] at hqb
    rw [Bool.eq_false_iff]
    intro hc
    rw [Box3i.contains_iff] at hc
    simp only [workBlocks, List.mem_flatMap, List.mem_map] at hbm'
    obtain ⟨k, hk, j, hj, i, hi, rfl⟩ := hbm'
    simp only at hqb hc
    obtain ⟨n, hn, _⟩ := (mem_starts _ B hb i).1 hi
    have h1 := hc.1.1
    have h2 := le_trans hqb.1.2 (min_le_left _ _)
    have hn0 : n = 0 := by
      by_contra h
      have : (B : ℤ) ≤ n * B := by
        have h1 : (1 : ℤ) ≤ n := by omega
        nlinarith
      omega
    subst hn0
    simp at hn
    omega
  · have wf := sparseTarget_wf hres hfit
    simp only [writeAt, Sparse.id_eq wf (show (sparseTarget res).dw.contains _ = true from hp),
      Sparse.id_eq wf (show (sparseTarget res).dw.contains _ = true from hq), Int.toNat_natCast]
    rw [sparse_id_iff hres hfit hp hq]
    simp only
    have hBz : (0 : ℤ) < B ∧ (B : ℤ) < 16 := by omega
    rw [Int.ediv_eq_zero_of_lt (by omega) (by omega), Int.ediv_eq_zero_of_lt (by omega) (by omega)]
    simp

/-- Two threads that store into the same new block: with this schedule both find the block not allocated, and the value of
the first thread is lost. -/
theorem C51_sparse_race (size : ℕ) (w w' : Write) (hb : w.block = 0) (hb' : w'.block = 0) (h : w.off < size)
    (h' : w'.off < size) (hne : w.off ≠ w'.off) (junk : ℚ) :
    ∃ s, SState.run size junk ⟨[Block.fresh 0], [⟨.test, [w]⟩, ⟨.test, [w']⟩]⟩ [0, 1, 0, 0, 0, 1, 1, 1] = some s ∧
      s.finished ∧ ∃ b, s.blocks = [b] ∧ Sparse.bval b w.off = some 0 ∧ Sparse.bval b w'.off = some w'.v := by
  obtain ⟨i, o, v⟩ := w
  obtain ⟨i', o', v'⟩ := w'
  simp only at hb hb' h h' hne
  subst hb hb'
  simp only [SState.run, SState.step, Block.fresh, List.getElem?_cons_zero, List.getElem?_cons_succ, Option.bind_some,
    List.set_cons_zero, List.set_cons_succ, Block.write, List.length_replicate, Option.map_some,
    Int.toNat_natCast, h, h', Int.natCast_nonneg, and_self, if_true, Bool.false_eq_true, if_false]
  refine ⟨_, rfl, ?_, _, rfl, ?_, ?_⟩
  · intro th hth
    simp only [List.mem_cons, List.not_mem_nil, or_false] at hth
    rcases hth with rfl | rfl <;> rfl
  · simp [Sparse.bval, Block.read, h, List.getElem_set_ne hne.symm]
  · simp [Sparse.bval, Block.read, h']

end Props
end F3D

import Verif.Proofs.WriteRuns
import Verif.Proofs.WriteOnce

/-!
# Threads that read and write the blocks of a sparse field: C39, C40

A schedule is the list of the threads that run, step after step, so "for every schedule" is "for every
interleaving". `RState.log` and `WState.log` are the blocks whose data was read, or written, in order.
-/

namespace F3D.Props
open F3D.BlockThreads

/-! ## Reading -/

section Read
variable {β : Type} (alloc : β → Bool) (fill : Nat → β → β)

/-- When all reading threads are finished, each allocated block was filled exactly once and with its own data
(`fill i` is "the data of block `i` from the file"), and nothing else was touched. -/
theorem C39_every_block_once (threads : Nat) (hT : 0 < threads) (bs : List β) (sched : List Nat)
    (hf : ((RState.init threads bs).run alloc fill sched).finished) :
    let s := (RState.init threads bs).run alloc fill sched
    s.blocks = bs.mapIdx (fun i b => if alloc b then fill i b else b) ∧
    ∀ i, s.log.count i = if (bs[i]?).any alloc then 1 else 0 := by
  intro s
  have inv : RInv alloc fill bs s := rinv_run alloc fill sched (rinv_init alloc fill threads bs)
  have hl : s.th.length = threads := by
    rw [rth_length alloc fill sched (RState.init threads bs)]; simp [RState.init]
  have hall : ∀ (u : Nat) (pc : RPc), s.th[u]? = some pc → pc = .done :=
    fun u pc h => hf pc (List.mem_of_getElem? h)
  have h0 : s.th[0]? = some .done := by
    rw [List.getElem?_eq_getElem (by omega)]
    exact congrArg some (hf _ (List.getElem_mem _))
  have hdn := inv.dn 0 h0
  have did : ∀ (i : Nat) b, bs[i]? = some b → s.blocks[i]? = some (if alloc b then fill i b else b) ∧
      (alloc b = true → i ∈ s.log) := by
    intro i b hb
    have hi : i < bs.length := (List.getElem?_eq_some_iff.mp hb).1
    exact inv.did i b hb (by omega) (by intro u h; have := hall u _ h; simp at this)
  refine ⟨?_, ?_⟩
  · apply List.ext_getElem?
    intro i
    rw [List.getElem?_mapIdx]
    cases hb : bs[i]? with
    | some b => rw [(did i b hb).1]; rfl
    | none =>
      rw [List.getElem?_eq_none_iff] at hb
      simp only [Option.map_none, List.getElem?_eq_none_iff]
      have := inv.len; omega
  · intro i
    cases hb : bs[i]? with
    | none =>
      simp only [Option.any_none, Bool.false_eq_true, if_false]
      rw [List.count_eq_zero]
      intro hm
      obtain ⟨b, h, _⟩ := inv.logs.2 i hm
      rw [hb] at h; simp at h
    | some b =>
      simp only [Option.any_some]
      by_cases ha : alloc b = true
      · rw [if_pos ha]
        have h1 := (did i b hb).2 ha
        have h2 := List.nodup_iff_count.mp inv.logs.1 i
        have h3 := List.count_pos_iff.mpr h1
        omega
      · rw [if_neg ha, List.count_eq_zero]
        intro hm
        obtain ⟨b', h, h'⟩ := inv.logs.2 i hm
        rw [hb, Option.some.injEq] at h; subst h; exact ha h'

/-- Schedules that only run threads which are not finished yet. -/
def RunsUnfinished : RState β → List Nat → Prop
  | _, [] => True
  | s, t :: ts => (∃ pc, s.th[t]? = some pc ∧ pc ≠ .done) ∧ RunsUnfinished (s.step alloc fill t) ts

theorem runsUnfinished_length {bs : List β} : ∀ (sched : List Nat) {s : RState β}, RInv alloc fill bs s →
    RunsUnfinished alloc fill s sched → sched.length ≤ rmeasure bs.length s
  | [], _, _, _ => by simp
  | t :: ts, s, inv, h => by
    obtain ⟨pc, h1, h2⟩ := h.1
    have a := rmeasure_step alloc fill inv t pc h1 h2
    have b := runsUnfinished_length ts (rinv_step alloc fill inv t) h.2
    simp only [List.length_cons]; omega

theorem rmeasure_init (threads : Nat) (bs : List β) :
    rmeasure bs.length (RState.init threads bs) = 2 * bs.length + threads := by
  have : ∀ k, ((List.replicate k RPc.fetch).map rweight).sum = k := by
    intro k
    induction k with
    | zero => rfl
    | succ k ih => simp only [List.replicate_succ, List.map_cons, List.sum_cons, ih, rweight]; omega
  simp only [rmeasure, RState.init, this]; omega

/-- Reading ends: the threads make at most `2 n + threads` steps together, whatever the schedule, and no
unfinished thread is ever blocked (each step of an unfinished thread counts). -/
theorem C39_terminates (threads : Nat) (bs : List β) (sched : List Nat)
    (h : RunsUnfinished alloc fill (RState.init threads bs) sched) :
    sched.length ≤ 2 * bs.length + threads := by
  rw [← rmeasure_init]
  exact runsUnfinished_length alloc fill sched (rinv_init alloc fill threads bs) h

end Read

/-! ## Writing -/

/-- The allocated blocks in block order: what the file must hold. -/
def allocatedBlocks (alloc : List Bool) : List Nat :=
  (List.range alloc.length).filter fun i => alloc.getD i false

theorem written_eq (alloc : List Bool) : written alloc alloc.length = allocatedBlocks alloc := by
  simp [written, allocatedBlocks, List.getD]

theorem written_prefix (alloc : List Bool) {w n : Nat} (h : w ≤ n) : written alloc w <+: written alloc n := by
  induction h with
  | refl => exact List.prefix_refl _
  | step _ ih =>
    rw [written_succ]
    exact ih.trans (List.prefix_append _ _)

/-- One thread: at every moment a beginning of the right list is written, and when the thread is finished the
whole list is. -/
theorem C40_one_thread (alloc : List Bool) (oob : Bool) (k : Nat) :
    let s := (WState.init 1 alloc).run alloc oob (List.replicate k 0)
    s.log <+: allocatedBlocks alloc ∧ (s.finished → s.log = allocatedBlocks alloc) := by
  intro s
  have ex : Exclusive alloc oob (WState.init 1 alloc) (List.replicate k 0) :=
    exclusive_single alloc oob _ _ (by simp [WState.init]) (by intro t ht; exact List.eq_of_mem_replicate ht)
  have inv : WInv alloc s := winv_run oob _ (winv_init 1 alloc) ex
  have hl : s.th.length = 1 := by
    rw [wrun_length alloc oob (List.replicate k 0) (WState.init 1 alloc)]; simp [WState.init]
  rw [← written_eq]
  refine ⟨?_, winv_finished inv (by omega)⟩
  obtain ⟨w, hw, e⟩ := winv_prefix inv
  rw [e]; exact written_prefix alloc hw

theorem wmeasure_init (threads : Nat) (alloc : List Bool) :
    wmeasure alloc.length (WState.init threads alloc) ≤ 13 * alloc.length + threads := by
  have : ∀ k w n, ((List.replicate k WPc.fetch).map (wweight n w)).sum = k := by
    intro k w n
    induction k with
    | zero => rfl
    | succ k ih => simp only [List.replicate_succ, List.map_cons, List.sum_cons, ih, wweight]; omega
  simp only [wmeasure, WState.init, this]; omega

/-- One thread finishes within `13 n + 1` steps, for `n` blocks. -/
theorem C40_one_thread_ends (alloc : List Bool) (oob : Bool) (k : Nat) (hk : 13 * alloc.length + 1 ≤ k) :
    ((WState.init 1 alloc).run alloc oob (List.replicate k 0)).finished := by
  have main : ∀ (k : Nat) (s : WState), WInv alloc s → s.th.length = 1 → wmeasure alloc.length s ≤ k →
      (s.run alloc oob (List.replicate k 0)).finished := by
    intro k
    induction k with
    | zero =>
      intro s inv hl hm
      by_cases hf : s.finished
      · exact hf
      · obtain ⟨t, hr, _⟩ := winv_progress inv hf
        have := winv_measure oob inv hr; omega
    | succ k ih =>
      intro s inv hl hm
      have hx : ∀ (u : Nat) (pc : WPc), s.th[u]? = some pc → pc.advancing = true → u = 0 := by
        intro u pc h _
        have := (List.getElem?_eq_some_iff.mp h).1
        omega
      show ((s.step alloc oob 0).run alloc oob (List.replicate k 0)).finished
      by_cases hf : s.finished
      · have h0 : s.th[0]? = some .done := by
          rw [List.getElem?_eq_getElem (by omega)]
          exact congrArg some (hf _ (List.getElem_mem _))
        have e : s.step alloc oob 0 = s := by unfold WState.step; rw [h0]
        have : ∀ j, s.run alloc oob (List.replicate j 0) = s := by
          intro j
          induction j with
          | zero => rfl
          | succ j ih =>
            show (s.step alloc oob 0).run alloc oob (List.replicate j 0) = s
            rw [e, ih]
        rw [e, this]; exact hf
      · obtain ⟨t, hr, _⟩ := winv_progress inv hf
        have ht : t = 0 := by
          obtain ⟨pc, h, _⟩ := hr
          have := (List.getElem?_eq_some_iff.mp h).1
          omega
        subst ht
        have := winv_measure oob inv hr
        exact ih _ (winv_step oob inv 0 hx) (by rw [wth_length]; exact hl) (by omega)
  exact main k _ (winv_init 1 alloc) (by simp [WState.init]) (by have := wmeasure_init 1 alloc; omega)

/-- Any number of threads, with the update of the counter made atomic (`Exclusive`: no other thread runs
between the write of a block and the end of the loop that moves the counter to the next allocated one): at every
moment a beginning of the right list is written, and when the threads are finished the whole list is. -/
theorem C40_atomic_update (threads : Nat) (hT : 0 < threads) (alloc : List Bool) (oob : Bool) (sched : List Nat)
    (h : Exclusive alloc oob (WState.init threads alloc) sched) :
    let s := (WState.init threads alloc).run alloc oob sched
    s.log <+: allocatedBlocks alloc ∧ (s.finished → s.log = allocatedBlocks alloc) := by
  intro s
  have inv : WInv alloc s := winv_run oob _ (winv_init threads alloc) h
  have hl : s.th.length = threads := by
    rw [wrun_length alloc oob sched (WState.init threads alloc)]; simp [WState.init]
  rw [← written_eq]
  refine ⟨?_, winv_finished inv (by omega)⟩
  obtain ⟨w, hw, e⟩ := winv_prefix inv
  rw [e]; exact written_prefix alloc hw

/-- The same threads never get stuck: whatever they did so far, they can go on to the end. -/
theorem C40_atomic_update_ends (threads : Nat) (alloc : List Bool) (oob : Bool) (sched : List Nat)
    (h : Exclusive alloc oob (WState.init threads alloc) sched) :
    ∃ rest, Exclusive alloc oob ((WState.init threads alloc).run alloc oob sched) rest ∧
      ((WState.init threads alloc).run alloc oob (sched ++ rest)).finished := by
  obtain ⟨rest, h1, h2⟩ := winv_can_finish oob _ (Nat.le_refl _) (winv_run oob _ (winv_init threads alloc) h)
  exact ⟨rest, h1, by rw [WState.run, List.foldl_append]; exact h2⟩

/-- The code as it is, with no assumption on the schedule, is right when every block is allocated. -/
theorem C40_all_allocated (threads : Nat) (hT : 0 < threads) (alloc : List Bool) (hall : ∀ b ∈ alloc, b = true)
    (oob : Bool) (sched : List Nat) :
    let s := (WState.init threads alloc).run alloc oob sched
    s.log <+: List.range alloc.length ∧ (s.finished → s.log = List.range alloc.length) ∧
    ∃ rest, ((WState.init threads alloc).run alloc oob (sched ++ rest)).finished := by
  intro s
  have inv : AInv alloc.length s := ainv_run hall oob sched (ainv_init threads hall)
  have hl : s.th.length = threads := by
    rw [wrun_length alloc oob sched (WState.init threads alloc)]; simp [WState.init]
  refine ⟨?_, ainv_finished inv (by omega), ?_⟩
  · obtain ⟨w, hw, e⟩ := ainv_prefix inv
    rw [e]
    exact ⟨(List.range (alloc.length - w)).map (w + ·), by
      rw [← List.range_add]; congr 1; omega⟩
  · obtain ⟨rest, h⟩ := ainv_can_finish hall oob _ (Nat.le_refl _) inv
    exact ⟨rest, by rw [WState.run, List.foldl_append]; exact h⟩

/-- The code as it is, any field and any schedule: no block is written twice and no unallocated block is written;
if the threads finish, each allocated block was written exactly once. (The order may be wrong, and the threads may
never finish: see below.) -/
theorem C40_each_block_at_most_once (threads : Nat) (hT : 0 < threads) (alloc : List Bool) (oob : Bool)
    (sched : List Nat) :
    let s := (WState.init threads alloc).run alloc oob sched
    (∀ i, s.log.count i ≤ if alloc.getD i false then 1 else 0) ∧
    (s.finished → ∀ i, s.log.count i = if alloc.getD i false then 1 else 0) := by
  intro s
  have inv : UInv alloc s := uinv_run oob sched (uinv_init threads alloc)
  have hl : s.th.length = threads := by
    rw [wrun_length alloc oob sched (WState.init threads alloc)]; simp [WState.init]
  have hle : ∀ i, s.log.count i ≤ if alloc.getD i false then 1 else 0 := by
    intro i
    by_cases hm : i ∈ s.log
    · have h1 := (inv.logs.2 i hm).2
      have : alloc.getD i false = true := by rw [List.getD_eq_getElem?_getD, h1]; rfl
      rw [if_pos this]
      exact List.nodup_iff_count.mp inv.logs.1 i
    · rw [List.count_eq_zero.mpr hm]; omega
  refine ⟨hle, ?_⟩
  intro hf i
  have := hle i
  by_cases ha : alloc.getD i false = true
  · rw [if_pos ha] at this ⊢
    have h0 : s.th[0]? = some .done := by
      rw [List.getElem?_eq_getElem (by omega)]
      exact congrArg some (hf _ (List.getElem_mem _))
    have hdn := inv.dn 0 h0
    have h1 : alloc[i]? = some true := by
      rw [List.getD_eq_getElem?_getD] at ha
      cases hx : alloc[i]? with
      | none => rw [hx] at ha; simp at ha
      | some b => rw [hx] at ha; simp at ha; rw [ha]
    have hi : i < alloc.length := (List.getElem?_eq_some_iff.mp h1).1
    rcases inv.cov i h1 (by omega) with h | ⟨u, pc, h, hh⟩
    · have := List.count_pos_iff.mpr h; omega
    · rw [hf pc (List.mem_of_getElem? h)] at hh; simp [WPc.holds] at hh
  · rw [if_neg ha] at this ⊢; omega

/-- Five blocks, the third not allocated, and a schedule in which the counter is moved past block 3 by two
increments and back to it by a delayed store. -/
def swapField : List Bool := [true, true, false, true, true]
def swapSchedule : List Nat :=
  [0, 0, 0, 0, 0, 0, 1, 1, 1, 1, 1, 0, 0, 1, 1, 0, 0, 0, 0, 0, 1, 1, 1, 1, 1, 1, 1, 0, 0, 0, 0, 0, 1, 1, 1, 1]

/-- The code as it is, two threads: `write` can return normally with two blocks in the wrong order in the file. -/
theorem C40_race_swaps_blocks (oob : Bool) :
    let s := (WState.init 2 swapField).run swapField oob swapSchedule
    s.finished ∧ s.log = [0, 1, 4, 3] ∧ allocatedBlocks swapField = [0, 1, 3, 4] := by
  have h : (WState.init 2 swapField).run swapField oob swapSchedule = ⟨7, 6, [.done, .done], [0, 1, 4, 3]⟩ := by
    cases oob <;> decide +kernel
  intro s
  have hs : s = ⟨7, 6, [.done, .done], [0, 1, 4, 3]⟩ := h
  rw [hs]
  refine ⟨?_, rfl, by decide⟩
  intro pc hpc
  simpa using hpc

/-- Four blocks, the third not allocated. -/
def gapField : List Bool := [true, true, false, true]

/-- Threads 0 and 1 write blocks 0 and 1, both see that block 2 is not allocated, and both step the counter. -/
def racySchedule : List Nat :=
  [0, 1, 0, 0, 0, 0, 0, 1, 1, 1, 1, 1, 0, 1, 0, 0, 1, 1, 0, 0, 1, 1]

/-- The code as it is, two threads: after this schedule block 3 is never written, whatever happens next, and the
thread that is to write it waits for ever: `write` never returns. -/
theorem C40_race_loses_a_block (oob : Bool) (rest : List Nat) :
    let s := (WState.init 2 gapField).run gapField oob (racySchedule ++ rest)
    s.log = [0, 1] ∧ 3 ∈ allocatedBlocks gapField ∧ ¬ s.finished := by
  have h : (WState.init 2 gapField).run gapField oob racySchedule = ⟨5, 4, [.wait 3, .done], [0, 1]⟩ := by
    cases oob <;> decide +kernel
  have fix : ∀ rest, WState.run gapField oob ⟨5, 4, [.wait 3, .done], [0, 1]⟩ rest = ⟨5, 4, [.wait 3, .done], [0, 1]⟩ := by
    intro rest
    induction rest with
    | nil => rfl
    | cons t ts ih =>
      have : WState.step gapField oob ⟨5, 4, [.wait 3, .done], [0, 1]⟩ t = ⟨5, 4, [.wait 3, .done], [0, 1]⟩ := by
        rcases t with _ | _ | t
        · rfl
        · rfl
        · simp [WState.step]
      show WState.run gapField oob (WState.step gapField oob _ t) ts = _
      rw [this, ih]
  intro s
  have hs : s = ⟨5, 4, [.wait 3, .done], [0, 1]⟩ := by
    show WState.run _ _ _ _ = _
    rw [WState.run, List.foldl_append]
    show WState.run gapField oob (WState.run gapField oob _ racySchedule) rest = _
    rw [h, fix]
  rw [hs]
  refine ⟨rfl, by decide, ?_⟩
  intro hf
  have := hf (.wait 3) (by simp)
  simp at this

/-- The code as it is, two threads and every block allocated: a thread can look at the block after the last one
(it tested the counter before another thread moved it). -/
theorem C40_race_reads_past_the_end (oob : Bool) :
    let s := (WState.init 2 [true, true]).run [true, true] oob [0, 1, 0, 0, 0, 0, 0, 1, 1, 1, 1]
    s.th[0]? = some .flag ∧ s.nextW = [true, true].length := by
  cases oob <;> decide +kernel

/-! ## The hypotheses can be met -/

/-- Blocks are pairs of "allocated" and contents. -/
example :
    let s := (RState.init 2 [(true, 0), (false, 0), (true, 0)]).run (·.1) (fun i b => (b.1, 10 + i)) [0, 1, 1, 0, 1, 0, 0, 1, 0, 1]
    s.blocks = [(true, 10), (false, 0), (true, 12)] ∧ s.log = [0, 2] ∧ s.th = [.done, .done] := by decide +kernel

example : let s := (WState.init 1 gapField).run gapField false (List.replicate 53 0)
    s.log = [0, 1, 3] ∧ s.th = [.done] := by decide +kernel

def calmSchedule : List Nat :=
  [0, 1, 0, 0, 0, 0, 0, 0, 1, 1, 1, 1, 1, 1, 1, 1, 1, 1, 0, 1, 0, 0, 0, 0, 0, 0]

/-- An exclusive schedule of two threads that ends. -/
example :
    let s := (WState.init 2 gapField).run gapField false calmSchedule
    s.log = [0, 1, 3] ∧ s.th = [.done, .done] := by decide +kernel

example : Exclusive gapField false (WState.init 2 gapField) calmSchedule := by
  have dec : ∀ (s : WState) (t : Nat), (∀ u < s.th.length, (s.th[u]?).any WPc.advancing = true → u = t) →
      ∀ (u : Nat) (pc : WPc), s.th[u]? = some pc → pc.advancing = true → u = t := by
    intro s t h u pc hu ha
    exact h u (List.getElem?_eq_some_iff.mp hu).1 (by rw [hu]; exact ha)
  repeat' first | (refine ⟨dec _ _ (by decide +kernel), ?_⟩) | trivial

end F3D.Props

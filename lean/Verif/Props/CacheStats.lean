import Mathlib.Data.Rat.Floor
import Mathlib.Algebra.Order.Field.Basic
import Verif.Proofs.CacheStats

/-!
# Property C93: the statistics of the block cache

`Runs`, `timesLoaded`, `stepsThatLoad`, `Count` are those of Spec/CacheStats: they look at which blocks
have their voxels in memory, step by step, and never at the counters.
-/

namespace F3D.Props
open F3D.Cache
open F3D.Spec.CacheStats
variable {α : Type}

/-- A manager with `n` threads that was just set up, its fields having `counts` blocks. -/
abbrev freshManager (n : Nat) (counts : List Nat) (stored : Key → Bool) (size : Key → Nat) (maxMem : Int)
    (limitOn : Bool) : Mgr α := Mgr.init n counts stored size maxMem limitOn

/-- The number of loaded blocks is the number of blocks whose voxels are in memory. -/
theorem C93_blocks_in_memory (file : Key → List α) (n : Nat) (counts : List Nat) (stored : Key → Bool)
    (size : Key → Nat) (maxMem : Int) (limitOn : Bool) (h : History α) (m : Mgr α)
    (hr : Runs file (freshManager n counts stored size maxMem limitOn) h m) :
    Count (fun k => inMemory m k = true) m.numLoadedBlocks := by
  have hi := Mgr.runs_inv (Mgr.minv_init n counts stored size maxMem limitOn) hr
  rw [Mgr.numLoaded_eq]
  have := Mgr.count_of (m := m) (fun k => m.sys.cache.flag k) hi.flag
  simpa only [Mgr.inMemory_eq hi.sinv] using this

/-- The number of blocks ever loaded is the number of blocks that are in memory or came into memory
since the last reset. -/
theorem C93_blocks_ever_loaded (file : Key → List α) (n : Nat) (counts : List Nat) (stored : Key → Bool)
    (size : Key → Nat) (maxMem : Int) (limitOn : Bool) (h : History α) (m : Mgr α)
    (hr : Runs file (freshManager n counts stored size maxMem limitOn) h m) :
    Count (fun k => inMemory m k = true ∨ 0 < timesLoaded k h) m.totalLoadedBlocks := by
  have h0 := Mgr.minv_init (α := α) (file := file) n counts stored size maxMem limitOn
  have hi := Mgr.runs_inv h0 hr
  have hl := Mgr.loads_eq h0 (fun _ => rfl) hr
  rw [Mgr.totalLoaded_eq]
  obtain ⟨l, a, b, c⟩ := Mgr.count_of (m := m)
    (fun k => decide (m.sys.cache.loads k ≠ 0 ∨ m.sys.cache.flag k = true))
    (by intro k hk; rw [decide_eq_true_eq] at hk; exact hk.elim (hi.loads k) (hi.flag k))
  refine ⟨l, a, fun k => ?_, c⟩
  rw [b k]
  show decide _ = true ↔ (inMemory m k = true ∨ 0 < timesLoaded k h)
  rw [decide_eq_true_eq, Mgr.inMemory_eq hi.sinv, hl k]
  constructor
  · rintro (x | x)
    · exact Or.inr (by omega)
    · exact Or.inl x
  · rintro (x | x)
    · exact Or.inr x
    · exact Or.inl (by omega)

/-- The number of loads is the sum, over all blocks, of how often each came into memory since the last
reset or the destruction of its field. -/
theorem C93_loads_of_blocks (file : Key → List α) (n : Nat) (counts : List Nat) (stored : Key → Bool)
    (size : Key → Nat) (maxMem : Int) (limitOn : Bool) (h : History α) (m : Mgr α)
    (hr : Runs file (freshManager n counts stored size maxMem limitOn) h m)
    (l : List Key) (hl : l.Nodup) (hall : ∀ k, timesLoaded k h ≠ 0 → k ∈ l) :
    m.totalLoads = (l.map fun k => timesLoaded k h).sum := by
  have h0 := Mgr.minv_init (α := α) (file := file) n counts stored size maxMem limitOn
  have hi := Mgr.runs_inv h0 hr
  have hle := Mgr.loads_eq h0 (fun _ => rfl) hr
  rw [Mgr.totalLoads_eq]
  simp only [hle]
  refine Mgr.sum_agree _ _ _ (Mgr.nodup_blocks m) hl ?_
  intro k hk
  refine ⟨fun _ => hall k hk, fun _ => Mgr.mem_blocks.mpr (hi.loads k ?_)⟩
  rw [hle k]; exact hk

/-- As long as no field is destroyed the number of loads is the number of steps since the last reset in
which a block came into memory. With fields destroyed it is at most that. -/
theorem C93_loading_steps (file : Key → List α) (n : Nat) (counts : List Nat) (stored : Key → Bool)
    (size : Key → Nat) (maxMem : Int) (limitOn : Bool) (h : History α) (m : Mgr α)
    (hr : Runs file (freshManager n counts stored size maxMem limitOn) h m) :
    m.totalLoads ≤ stepsThatLoad h ∧
    ((∀ fd, Without h (.ev (.remove fd))) → m.totalLoads = stepsThatLoad h) :=
  Mgr.totalLoads_steps (Mgr.minv_init n counts stored size maxMem limitOn) (fun _ => rfl) hr

theorem count_le {p q : Key → Prop} {a b : Nat} (ha : Count p a) (hb : Count q b) (h : ∀ k, p k → q k) :
    a ≤ b := by
  obtain ⟨l, n1, m1, rfl⟩ := ha
  obtain ⟨l', n2, m2, rfl⟩ := hb
  exact (List.subperm_of_subset n1 fun k hk => (m2 k).mpr (h k ((m1 k).mp hk))).length_le

/-- The three ratios in terms of what is and was in memory. With `a` blocks in memory, `b` blocks in
memory or loaded since the last reset, and `t` loads of blocks: the fraction is `a / b` and lies between
0 and 1, the loads per block are `t / b`, the efficiency is `b / t`, with 0 and `b` where the divisor
would be 0. -/
theorem C93_ratios (file : Key → List α) (n : Nat) (counts : List Nat) (stored : Key → Bool)
    (size : Key → Nat) (maxMem : Int) (limitOn : Bool) (h : History α) (m : Mgr α)
    (hr : Runs file (freshManager n counts stored size maxMem limitOn) h m) (a b : Nat)
    (ha : Count (fun k => inMemory m k = true) a)
    (hb : Count (fun k => inMemory m k = true ∨ 0 < timesLoaded k h) b)
    (l : List Key) (hl : l.Nodup) (hall : ∀ k, timesLoaded k h ≠ 0 → k ∈ l) (t : Nat)
    (ht : t = (l.map fun k => timesLoaded k h).sum) :
    m.cacheFractionLoaded = (a : Rat) / (b : Rat) ∧ 0 ≤ m.cacheFractionLoaded ∧ m.cacheFractionLoaded ≤ 1 ∧
    m.cacheLoadsPerBlock = (t : Rat) / (b : Rat) ∧
    m.cacheEfficiency = if t = 0 then (b : Rat) else (b : Rat) / (t : Rat) := by
  have ha' := C93_blocks_in_memory file n counts stored size maxMem limitOn h m hr
  have hb' := C93_blocks_ever_loaded file n counts stored size maxMem limitOn h m hr
  have ea : m.numLoadedBlocks = a :=
    Nat.le_antisymm (count_le ha' ha fun _ h => h) (count_le ha ha' fun _ h => h)
  have eb : m.totalLoadedBlocks = b :=
    Nat.le_antisymm (count_le hb' hb fun _ h => h) (count_le hb hb' fun _ h => h)
  have et : m.totalLoads = t := by
    rw [ht]; exact C93_loads_of_blocks file n counts stored size maxMem limitOn h m hr l hl hall
  have hab : a ≤ b := count_le ha hb fun _ h => Or.inl h
  have htb : b = 0 → t = 0 := by
    intro h0
    obtain ⟨l', _, m2, h3⟩ := hb
    have hnil : l' = [] := List.eq_nil_of_length_eq_zero (by omega)
    rw [ht]
    apply Mgr.sum_zero
    intro k _
    by_contra hk
    have := (m2 k).mpr (Or.inr (by omega))
    rw [hnil] at this; cases this
  unfold Mgr.cacheFractionLoaded Mgr.cacheLoadsPerBlock Mgr.cacheEfficiency
  rw [ea, eb, et]
  have e1 : (a : Rat) / ((max 1 b : Nat) : Rat) = (a : Rat) / (b : Rat) := by
    rcases Nat.eq_zero_or_pos b with h0 | h0
    · have : a = 0 := by omega
      subst this; simp
    · rw [Nat.max_eq_right h0]
  refine ⟨e1, ?_, ?_, ?_, ?_⟩
  · exact div_nonneg (Nat.cast_nonneg _) (Nat.cast_nonneg _)
  · rw [div_le_one (by exact_mod_cast (by omega : 0 < max 1 b))]
    exact_mod_cast (by omega : a ≤ max 1 b)
  · rcases Nat.eq_zero_or_pos b with h0 | h0
    · rw [htb h0]; simp
    · rw [Nat.max_eq_right h0]
  · split
    · rename_i h0; rw [h0]; simp
    · rename_i h0; rw [Nat.max_eq_right (by omega)]

/-- Without a reset the efficiency is at most 1, and it is 1 exactly if no block was loaded twice. -/
theorem C93_efficiency (file : Key → List α) (n : Nat) (counts : List Nat) (stored : Key → Bool)
    (size : Key → Nat) (maxMem : Int) (limitOn : Bool) (h : History α) (m : Mgr α)
    (hr : Runs file (freshManager n counts stored size maxMem limitOn) h m) (hw : Without h .reset) :
    m.cacheEfficiency ≤ 1 ∧
    ((∃ k, timesLoaded k h ≠ 0) → (m.cacheEfficiency = 1 ↔ ∀ k, timesLoaded k h ≤ 1) ∧
      1 ≤ m.cacheLoadsPerBlock ∧ m.cacheLoadsPerBlock * m.cacheEfficiency = 1) := by
  have h0 := Mgr.minv_init (α := α) (file := file) n counts stored size maxMem limitOn
  have hi := Mgr.runs_inv h0 hr
  have hle := Mgr.loads_eq h0 (fun _ => rfl) hr
  have hfl := fun k => Mgr.loaded_counted h0 (fun _ => rfl) hr hw k
  have e1 : m.totalLoadedBlocks = m.blocks.countP fun k => decide (timesLoaded k h ≠ 0) := by
    rw [Mgr.totalLoaded_eq]
    apply List.countP_congr
    intro k _
    simp only [decide_eq_true_eq, hle k]
    exact ⟨fun x => x.elim id (hfl k), Or.inl⟩
  have e2 : m.totalLoads = (m.blocks.map fun k => timesLoaded k h).sum := by
    rw [Mgr.totalLoads_eq]; simp only [hle]
  obtain ⟨g1, g2⟩ := Mgr.countP_le_sum (fun k => timesLoaded k h) m.blocks
  rw [← e1, ← e2] at g1 g2
  have hmem : (∀ k ∈ m.blocks, timesLoaded k h ≤ 1) ↔ ∀ k, timesLoaded k h ≤ 1 := by
    refine ⟨fun hh k => ?_, fun hh k _ => hh k⟩
    by_contra hk
    exact hk (hh k (Mgr.mem_blocks.mpr (hi.loads k (by rw [hle k]; omega))))
  rw [hmem] at g2
  unfold Mgr.cacheEfficiency Mgr.cacheLoadsPerBlock
  refine ⟨?_, ?_⟩
  · rw [div_le_one (by exact_mod_cast (by omega : 0 < max 1 m.totalLoads))]
    exact_mod_cast (by omega : m.totalLoadedBlocks ≤ max 1 m.totalLoads)
  · rintro ⟨k, hk⟩
    have hpos : 0 < m.totalLoadedBlocks := by
      rw [e1, List.countP_pos_iff]
      exact ⟨k, Mgr.mem_blocks.mpr (hi.loads k (by rw [hle k]; exact hk)), by simpa using hk⟩
    rw [Nat.max_eq_right (by omega : 1 ≤ m.totalLoads), Nat.max_eq_right (by omega : 1 ≤ m.totalLoadedBlocks)]
    have p1 : (0 : Rat) < (m.totalLoads : Rat) := by exact_mod_cast (by omega : 0 < m.totalLoads)
    have p2 : (0 : Rat) < (m.totalLoadedBlocks : Rat) := by exact_mod_cast hpos
    refine ⟨?_, ?_, ?_⟩
    · rw [div_eq_one_iff_eq (ne_of_gt p1), ← g2]
      exact Nat.cast_inj
    · rw [one_le_div p2]; exact_mod_cast g1
    · rw [div_mul_div_comm, mul_comm, div_self (ne_of_gt (mul_pos p2 p1))]

/-- With memory not limited and the cache not flushed, no block is loaded twice, whatever the threads
do, also after resets and the destruction of fields. -/
theorem C93_unlimited_loads_once (file : Key → List α) (n : Nat) (counts : List Nat) (stored : Key → Bool)
    (size : Key → Nat) (maxMem : Int) (h : History α) (m : Mgr α)
    (hr : Runs file (freshManager n counts stored size maxMem false) h m)
    (hf : Without h (.ev .flush)) (hs : Without h (.ev (.setLimit true))) (k : Key) :
    timesLoaded k h ≤ 1 := by
  have h0 := Mgr.minv_init (α := α) (file := file) n counts stored size maxMem false
  rw [← Mgr.loads_eq h0 (fun _ => rfl) hr k]
  suffices hu : Mgr.Unlimited m from (hu.once k).1
  clear k
  induction hr with
  | start =>
    refine ⟨rfl, ?_, fun k => ⟨Nat.zero_le _, fun h => by cases h⟩⟩
    intro t ph k i ht
    have ht' : (List.replicate n PC.idle)[t]? = some (.at ph k i) := ht
    have := List.mem_of_getElem? ht'
    rw [List.mem_replicate] at this
    cases this.2
  | step c hr' hst ih =>
    refine Mgr.unlimited_step (Mgr.runs_inv h0 hr') (ih ?_ ?_) c hst ?_ ?_
    · exact fun e he => hf e (List.mem_append_left _ he)
    · exact fun e he => hs e (List.mem_append_left _ he)
    · exact hf _ (List.mem_append_right _ (List.mem_singleton.mpr rfl))
    · exact hs _ (List.mem_append_right _ (List.mem_singleton.mpr rfl))

/-! ## Concrete histories -/

/-- Run a list of calls, keeping the history. -/
def managerCalls (file : Key → List α) : Mgr α → History α → List Call → Option (History α × Mgr α)
  | m, h, [] => some (h, m)
  | m, h, c :: cs => (m.step file c).bind fun m' => managerCalls file m' (h ++ [(m, c, m')]) cs

theorem managerCalls_runs {file : Key → List α} {m₀ : Mgr α} : ∀ (cs : List Call) (m : Mgr α) (h : History α)
    (h' : History α) (m' : Mgr α), Runs file m₀ h m → managerCalls file m h cs = some (h', m') → Runs file m₀ h' m' := by
  intro cs
  induction cs with
  | nil => intro m h h' m' hr he; simp only [managerCalls] at he; cases he; exact hr
  | cons c cs ih =>
    intro m h h' m' hr he
    simp only [managerCalls, Option.bind_eq_some_iff] at he
    obtain ⟨m1, h1, h2⟩ := he
    exact ih m1 _ h' m' (.step c hr h1) h2

/-- Thread 0 reads a voxel of the block, from start to end, with memory not limited. -/
def readOf (k : Key) : List Call :=
  [.ev (.start 0 k 0), .ev (.run 0), .ev (.run 0), .ev (.run 0), .ev (.run 0), .ev (.run 0)]

/-- Two fields with three and two blocks; two blocks of the first and one of the second are read, the
cache is flushed, and one of them is read again. -/
def twoFieldCalls : List Call :=
  readOf ⟨0, 1⟩ ++ readOf ⟨1, 0⟩ ++ readOf ⟨0, 2⟩ ++ [.ev .flush] ++ readOf ⟨0, 2⟩

/-- A history with a block loaded twice and blocks that left memory: four loads of three blocks, one of
them in memory. -/
example : ∃ h m, Runs (fun _ => [7]) (freshManager 1 [3, 2] (fun _ => true) (fun _ => 4) 100 false) h m ∧
    m.totalLoads = 4 ∧ m.totalLoadedBlocks = 3 ∧ m.numLoadedBlocks = 1 ∧
    timesLoaded ⟨0, 2⟩ h = 2 ∧ m.cacheEfficiency = 3 / 4 ∧ Without h .reset := by
  have hex : (managerCalls (fun _ => [7]) (freshManager 1 [3, 2] (fun _ => true) (fun _ => 4) 100 false) []
      twoFieldCalls).map (fun p => (p.2.totalLoads, p.2.totalLoadedBlocks, p.2.numLoadedBlocks,
        timesLoaded ⟨0, 2⟩ p.1, decide (p.2.cacheEfficiency = 3 / 4), p.1.all fun e => decide (e.2.1 ≠ .reset))) =
      some (4, 3, 1, 2, true, true) := by decide +kernel
  rw [Option.map_eq_some_iff] at hex
  obtain ⟨⟨h, m⟩, h1, h2⟩ := hex
  simp only [Prod.mk.injEq, decide_eq_true_eq] at h2
  obtain ⟨a, b, c, d, e, f⟩ := h2
  refine ⟨h, m, managerCalls_runs _ _ _ _ _ .start h1, a, b, c, d, e, ?_⟩
  intro x hx
  have := List.all_eq_true.mp f x hx
  simpa using this

/-- After a reset with blocks in memory the efficiency is not bounded by 1: two blocks are read, the
statistics are reset, and the efficiency is 2 with no load at all. -/
theorem C93_efficiency_after_reset : ∃ h m,
    Runs (fun _ => [7]) (freshManager 1 [3, 2] (fun _ => true) (fun _ => 4) 100 false) h m ∧
    m.totalLoads = 0 ∧ m.cacheLoadsPerBlock = 0 ∧ m.cacheEfficiency = 2 := by
  have hex : (managerCalls (fun _ => [7]) (freshManager 1 [3, 2] (fun _ => true) (fun _ => 4) 100 false) []
      (readOf ⟨0, 1⟩ ++ readOf ⟨1, 0⟩ ++ [.reset])).map (fun p => (p.2.totalLoads,
        decide (p.2.cacheLoadsPerBlock = 0), decide (p.2.cacheEfficiency = 2))) =
      some (0, true, true) := by decide +kernel
  rw [Option.map_eq_some_iff] at hex
  obtain ⟨⟨h, m⟩, h1, h2⟩ := hex
  simp only [Prod.mk.injEq, decide_eq_true_eq] at h2
  exact ⟨h, m, managerCalls_runs _ _ _ _ _ .start h1, h2⟩

/-- Destroying a field takes its loads out of the total: there is a history with one load and no reset
after which the total is 0. -/
theorem C93_destroying_forgets_loads : ∃ h m,
    Runs (fun _ => [7]) (freshManager 1 [3, 2] (fun _ => true) (fun _ => 4) 100 false) h m ∧
    Without h .reset ∧ m.totalLoads = 0 ∧ stepsThatLoad h ≠ 0 := by
  have hex : (managerCalls (fun _ => [7]) (freshManager 1 [3, 2] (fun _ => true) (fun _ => 4) 100 false) []
      (readOf ⟨0, 1⟩)).map (fun p => (p.2.totalLoads, (p.2.step (fun _ => [7]) (.ev (.remove 0))).map (·.totalLoads),
        p.1.all fun e => decide (e.2.1 ≠ .reset))) =
      some (1, some 0, true) := by decide +kernel
  rw [Option.map_eq_some_iff] at hex
  obtain ⟨⟨h, m⟩, h1, h2⟩ := hex
  simp only [Prod.mk.injEq, Option.map_eq_some_iff] at h2
  obtain ⟨a, ⟨m', b, b'⟩, c⟩ := h2
  have hr := managerCalls_runs _ _ _ _ _ Runs.start h1
  have hw : Without h .reset := by
    intro x hx
    have := List.all_eq_true.mp c x hx
    simpa using this
  refine ⟨_, m', .step _ hr b, ?_, b', ?_⟩
  · intro x hx
    rcases List.mem_append.mp hx with hx | hx
    · exact hw x hx
    · rw [List.mem_singleton] at hx; subst hx; simp
  · have h1 := (C93_loading_steps _ _ _ _ _ _ _ _ _ hr).1
    rw [a] at h1
    rw [Mgr.steps_snoc, if_neg (by simp)]
    split <;> omega

end F3D.Props

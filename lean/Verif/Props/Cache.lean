import Verif.Proofs.CacheEvict

/-!
# Properties C24–C29: the block cache of dynamically loaded fields
-/

namespace F3D.Props

open F3D.Cache

variable {α : Type}

/-! ## Specification -/

/-- `s` is reached from `s₀` by events each of which satisfies `ok` in the state in which it occurs. -/
inductive Reaches (file : Key → List α) (ok : Sys α → Event → Prop) (s₀ : Sys α) : Sys α → Prop where
  | refl : Reaches file ok s₀ s₀
  | step {s s' : Sys α} (e : Event) : Reaches file ok s₀ s → ok s e → s.step file e = some s' →
      Reaches file ok s₀ s'

/-- Any event may happen. -/
def anyEvent : Sys α → Event → Prop := fun _ _ => True

/-- The cache is flushed only while no thread is inside a read. -/
def flushBetweenReads : Sys α → Event → Prop := fun s e =>
  e = .flush → ∀ pc ∈ s.threads, pc = .idle

/-- The memory limit is left as it is. -/
def limitUntouched : Sys α → Event → Prop := fun _ e =>
  (∀ m, e ≠ .setMax m) ∧ (∀ b, e ≠ .setLimit b)

/-- The manager's list of cached blocks. -/
def cacheList (c : St α) : List Key := c.pre ++ c.post

/-- The cached blocks in the order in which the hand meets them: from the hand to the end of the list,
then from the start of the list. -/
def handPath (c : St α) : List Key := c.post ++ c.pre

/-- Total size of some blocks. -/
def sizeOf (c : St α) (l : List Key) : Int := (l.map (fun k => (c.size k : Int))).sum

/-- Thread `t` is inside a read of block `k` (it has pinned it and not yet unpinned it). -/
def Reading (s : Sys α) (t : Nat) (k : Key) : Prop := ∃ ph i, s.threads[t]? = some (.at ph k i)

/-! ## Lemmas -/

theorem quiet_of {s : Sys α} {e : Event} (h : flushBetweenReads s e) : s.quiet e = true := by
  cases e <;> simp only [Sys.quiet]
  rw [List.all_eq_true]
  intro pc hpc
  simpa using h rfl pc hpc

theorem reaches_inv {file : Key → List α} {ok : Sys α → Event → Prop} {s₀ s : Sys α}
    (h : Reaches file ok s₀ s) (h0 : Sys.SInv file s₀) : Sys.SInv file s := by
  induction h with
  | refl => exact h0
  | step e _ _ he ih => exact Sys.inv_step ih e he

theorem reaches_safe {file : Key → List α} {s₀ s : Sys α}
    (h : Reaches file flushBetweenReads s₀ s) (h0 : Sys.SInv file s₀) (h1 : Sys.Safe file s₀) :
    Sys.Safe file s := by
  induction h with
  | refl => exact h1
  | step e hr hok he ih => exact Sys.safe_step (reaches_inv hr h0) ih e (quiet_of hok) he

theorem safe_init {file : Key → List α} (n : Nat) (stored : Key → Bool) (size : Key → Nat) (m : Int) (b : Bool) :
    Sys.Safe file (Sys.init n stored size m b : Sys α) := by
  refine ⟨?_, ?_⟩
  · intro t ph k i h
    have := List.eq_of_mem_replicate (List.mem_of_getElem? h)
    cases this
  · intro k i v h; simp [Sys.init] at h

theorem reaches_exec {file : Key → List α} {ok : Sys α → Event → Prop} {s₀ : Sys α} (es : List Event) :
    ∀ s s', Reaches file ok s₀ s → (∀ t e, ok t e) → s.exec file es = some s' → Reaches file ok s₀ s' := by
  induction es with
  | nil => intro s s' h _ he; cases he; exact h
  | cons e es ih =>
    intro s s' h hok he
    simp only [Sys.exec, Option.bind_eq_some_iff] at he
    obtain ⟨s1, h1, h2⟩ := he
    exact ih s1 s' (.step e h (hok _ _) h1) hok h2

/-! ## C24 -/

/-- Whatever the threads read, in whatever order and with whatever evictions, limit changes, field
removals and flushes between reads, every read that has returned gave what the file holds. -/
theorem C24_reads_return_file_data (file : Key → List α) (n : Nat) (stored : Key → Bool)
    (size : Key → Nat) (maxMem : Int) (limitOn : Bool) (s : Sys α)
    (h : Reaches file flushBetweenReads (Sys.init n stored size maxMem limitOn) s) :
    ∀ k i v, (k, i, v) ∈ s.log → v = (file k)[i]? :=
  (reaches_safe h (Sys.inv_init _ _ _ _ _) (safe_init _ _ _ _ _)).log

theorem exec_append (file : Key → List α) : ∀ (a b : List Event) (s : Sys α),
    s.exec file (a ++ b) = (s.exec file a).bind (fun s' => s'.exec file b) := by
  intro a
  induction a with
  | nil => intro b s; rfl
  | cons e a ih =>
    intro b s
    simp only [List.cons_append, Sys.exec]
    cases s.step file e with
    | none => rfl
    | some s1 => simp only [Option.bind_some]; exact ih b s1

theorem run_evict {file : Key → List α} {k : Key} {i : Nat} {c c' : St α} {vs : List Key} {n : Nat}
    {lk : Option Nat} {log : List (Key × Nat × Option α)} (h : St.Evicts (c.size k) c vs n c') :
    Sys.exec file ⟨c, lk, [.at .evict k i], log⟩ (List.replicate (n + 1) (.run 0)) =
      some ⟨c', none, [.at .load k i], log⟩ := by
  generalize hs : c.size k = sz at h
  induction h with
  | @stop c hc => simp [Sys.exec, Sys.step, Sys.runStep, Sys.goto, hs, hc]
  | @turn c c' vs n hc _ _ ih =>
    rw [List.replicate_succ, Sys.exec]
    simp only [Sys.step, Sys.runStep, List.getElem?_cons_zero, hs, hc, if_true, Option.bind_some]
    exact ih (by rw [(St.evictIter_const c).2.1]; exact hs)
  | @free c c' vs n _ hc _ _ _ ih =>
    rw [List.replicate_succ, Sys.exec]
    simp only [Sys.step, Sys.runStep, List.getElem?_cons_zero, hs, hc, if_true, Option.bind_some]
    exact ih (by rw [(St.evictIter_const c).2.1]; exact hs)

/-- The last part of a read: the block is loaded. -/
theorem run_tail {file : Key → List α} {k : Key} {i : Nat} {c : St α} {lk : Option Nat}
    {log : List (Key × Nat × Option α)} (hd : c.data k = some (file k)) :
    ∃ c', Sys.exec file ⟨c, lk, [.at .mark k i], log⟩ (List.replicate 3 (.run 0)) =
      some ⟨c', lk, [.idle], log ++ [(k, i, (file k)[i]?)]⟩ := by
  refine ⟨St.decRef { c with used := upd c.used k true } k, ?_⟩
  simp [Sys.exec, Sys.step, Sys.runStep, Sys.goto, List.replicate_succ, hd]

/-- With a single reader every read completes, for any limit (even zero or negative), and returns the
file's value. -/
theorem C24_single_reader_completes (file : Key → List α) (stored : Key → Bool) (size : Key → Nat)
    (maxMem : Int) (limitOn : Bool) (s : Sys α)
    (h : Reaches file anyEvent (Sys.init 1 stored size maxMem limitOn) s)
    (hidle : s.threads = [.idle]) (k : Key) (i : Nat) (hk : s.cache.stored k = true) :
    ∃ m s', s.exec file (.start 0 k i :: List.replicate m (.run 0)) = some s' ∧
      s'.threads = [.idle] ∧ s'.log = s.log ++ [(k, i, (file k)[i]?)] := by
  have hinv := reaches_inv h (Sys.inv_init 1 stored size maxMem limitOn)
  obtain ⟨c, lk, th, lg⟩ := s
  simp only at hidle hk
  subst hidle
  have hlk : lk = none := by
    cases lk with
    | none => rfl
    | some t =>
      obtain ⟨k', i', h'⟩ := hinv.locked t rfl
      cases t <;> simp at h'
  subst hlk
  let c1 : St α := c.incRef k
  have hc1 : c1 = { c with refs := upd c.refs k (c.refs k + 1) } := by
    show c.incRef k = _; unfold St.incRef; rw [if_pos hk]
  have hstart : Sys.step file ⟨c, none, [.idle], lg⟩ (.start 0 k i) =
      some ⟨c1, none, [.at .check k i], lg⟩ := by
    simp [Sys.step, Sys.goto, hk, c1]
  have hinv1 : Sys.SInv file ⟨c1, none, [.at .check k i], lg⟩ := Sys.inv_step hinv _ hstart
  have hst1 : c1.stored k = true := by rw [hc1]; exact hk
  -- from the load phase on
  have hload : ∀ c2 : St α, c2.CInv file →
      ∃ s', Sys.exec file ⟨c2, none, [.at .load k i], lg⟩ (List.replicate 4 (.run 0)) = some s' ∧
        s'.threads = [.idle] ∧ s'.log = lg ++ [(k, i, (file k)[i]?)] := by
    intro c2 h2
    have hd : (c2.loadLocked file k).data k = some (file k) := by
      rw [(h2.load k).data, St.loadLocked_flag]; simp
    obtain ⟨c', hc'⟩ := run_tail (i := i) (lk := none) (log := lg) hd
    refine ⟨⟨c', none, [.idle], lg ++ [(k, i, (file k)[i]?)]⟩, ?_, rfl, rfl⟩
    rw [show List.replicate 4 (Event.run 0) = .run 0 :: List.replicate 3 (.run 0) from rfl, Sys.exec]
    rw [show Sys.step file ⟨c2, none, [.at .load k i], lg⟩ (.run 0) =
      some ⟨c2.loadLocked file k, none, [.at .mark k i], lg⟩ from by
        simp [Sys.step, Sys.runStep, Sys.goto]]
    exact hc'
  cases hf : c1.flag k with
  | true =>
    have hd : c1.data k = some (file k) := by rw [hinv1.cinv.data, hf]; simp
    obtain ⟨c', hc'⟩ := run_tail (i := i) (lk := none) (log := lg) hd
    refine ⟨4, ⟨c', none, [.idle], lg ++ [(k, i, (file k)[i]?)]⟩, ?_, rfl, rfl⟩
    rw [Sys.exec, hstart, Option.bind_some,
      show List.replicate 4 (Event.run 0) = .run 0 :: List.replicate 3 (.run 0) from rfl, Sys.exec]
    rw [show Sys.step file ⟨c1, none, [.at .check k i], lg⟩ (.run 0) =
        some ⟨c1, none, [.at .mark k i], lg⟩ from by
          simp [Sys.step, Sys.runStep, Sys.goto, hf]]
    exact hc'
  | false =>
    cases hlim : c1.limitOn with
    | false =>
      obtain ⟨s', h1, h2, h3⟩ := hload c1 hinv1.cinv
      refine ⟨5, s', ?_, h2, h3⟩
      rw [Sys.exec, hstart, Option.bind_some,
        show List.replicate 5 (Event.run 0) = .run 0 :: List.replicate 4 (.run 0) from rfl, Sys.exec]
      rw [show Sys.step file ⟨c1, none, [.at .check k i], lg⟩ (.run 0) =
        some ⟨c1, none, [.at .load k i], lg⟩ from by
          simp [Sys.step, Sys.runStep, Sys.goto, hf, hlim, hst1]]
      exact h1
    | true =>
      have hunp : ∀ x ∈ c1.path, ¬ c1.refs x > 0 := by
        intro x hx hr
        have hxk : x ≠ k := by
          intro e; subst e
          rw [hinv1.cinv.mem, hf] at hx; cases hx
        have := hinv1.refs x
        simp only [List.countP_cons, List.countP_nil, PC.uses] at this
        have hkx : ¬ k = x := Ne.symm hxk
        simp [hkx] at this
        omega
      obtain ⟨vs, n, c2, hev, _⟩ :=
        St.evicts_unpinned (needed := c1.size k) c1.weight c1 hinv1.cinv.nodup hunp rfl
      have hrun := run_evict (file := file) (i := i) (lk := some 0) (log := lg) hev
      have hinv2 : Sys.SInv file ⟨c2, none, [.at .load k i], lg⟩ := by
        have hd : Sys.exec file ⟨c1, none, [.at .check k i], lg⟩
            (List.replicate (2 + (n + 1)) (.run 0)) = some ⟨c2, none, [.at .load k i], lg⟩ := by
          rw [← List.replicate_append_replicate, exec_append]
          simp [Sys.exec, Sys.step, Sys.runStep, Sys.goto, hf, hlim, hst1, List.replicate_succ] at hrun ⊢
          exact hrun
        exact reaches_inv (reaches_exec (ok := anyEvent) _ _ _ .refl (fun _ _ => trivial) hd) hinv1
      obtain ⟨s', h1, h2, h3⟩ := hload c2 hinv2.cinv
      refine ⟨2 + ((n + 1) + 4), s', ?_, h2, h3⟩
      rw [Sys.exec, hstart, Option.bind_some, ← List.replicate_append_replicate, exec_append]
      rw [show Sys.exec file ⟨c1, none, [.at .check k i], lg⟩ (List.replicate 2 (.run 0)) =
        some ⟨c1, some 0, [.at .evict k i], lg⟩ from by
          simp [Sys.exec, Sys.step, Sys.runStep, Sys.goto, hf, hlim, hst1, List.replicate_succ]]
      rw [Option.bind_some, ← List.replicate_append_replicate, exec_append, hrun, Option.bind_some]
      exact h1

/-! ## C25 -/

/-- The accounted memory is the total size of the loaded blocks, for any history. -/
theorem C25_accounted_is_loaded (file : Key → List α) (n : Nat) (stored : Key → Bool)
    (size : Key → Nat) (maxMem : Int) (limitOn : Bool) (s : Sys α)
    (h : Reaches file anyEvent (Sys.init n stored size maxMem limitOn) s) :
    s.cache.memUse = sizeOf s.cache (cacheList s.cache) ∧ (cacheList s.cache).Nodup ∧
    (∀ k, k ∈ cacheList s.cache ↔ (s.cache.data k).isSome) := by
  have hinv := reaches_inv h (Sys.inv_init n stored size maxMem limitOn)
  have hp : (cacheList s.cache).Perm s.cache.path := List.perm_append_comm
  refine ⟨?_, hp.nodup_iff.mpr hinv.cinv.nodup, ?_⟩
  · rw [hinv.cinv.mem_use]; exact (St.total_perm hp).symm
  · intro k
    rw [hp.mem_iff, hinv.cinv.mem, hinv.cinv.data]
    cases s.cache.flag k <;> simp

/-- What holds of the single reader at each of its phases. -/
def Bounded (s : Sys α) : Prop :=
  s.cache.limitOn = true ∧ s.threads.length = 1 ∧
  (s.cache.memUse ≤ s.cache.maxMem ∨ ∃ k, s.cache.path = [k] ∨ s.cache.path = []) ∧
  (∀ k i, s.threads[0]? = some (.at .load k i) →
    s.cache.memUse + s.cache.size k ≤ s.cache.maxMem ∨ s.cache.path = [])

theorem bounded_goto {s : Sys α} (hb : Bounded s) (t : Nat) (pc : PC) (hpc : ∀ k i, pc ≠ .at .load k i)
    (c' : St α) (l' : Option Nat) (g : List (Key × Nat × Option α)) (h1 : c'.limitOn = s.cache.limitOn)
    (h2 : c'.memUse = s.cache.memUse) (h3 : c'.maxMem = s.cache.maxMem) (h4 : c'.path = s.cache.path)
    (ht : (s.threads[t]?).isSome) :
    Bounded ⟨c', l', s.threads.set t pc, g⟩ := by
  obtain ⟨b1, b2, b3, b4⟩ := hb
  have : t = 0 := by
    rcases Nat.lt_or_ge t s.threads.length with h | h
    · omega
    · rw [List.getElem?_eq_none h] at ht; cases ht
  subst this
  refine ⟨by rw [← b1]; exact h1, by simpa using b2, ?_, ?_⟩
  · simp only [h2, h3, h4]; exact b3
  · intro k i h
    simp only [List.getElem?_set] at h
    simp [b2] at h
    exact absurd h (hpc k i)

theorem bounded_step {file : Key → List α} {s s' : Sys α} (hi : Sys.SInv file s) (hb : Bounded s) (e : Event)
    (hok : limitUntouched s e) (hs : s.step file e = some s') : Bounded s' := by
  have hb0 := hb
  obtain ⟨b1, b2, b3, b4⟩ := hb
  cases e with
  | setMax m => exact absurd rfl (hok.1 m)
  | setLimit b => exact absurd rfl (hok.2 b)
  | start t k i =>
    simp only [Sys.step] at hs
    split at hs
    · rename_i hg; cases hs
      refine bounded_goto hb0 t _ (by simp) _ _ _ ?_ ?_ ?_ ?_ (by rw [hg.1]; rfl) <;>
        (unfold St.incRef; split <;> rfl)
    · cases hs
  | flush =>
    simp only [Sys.step] at hs
    split at hs
    · cases hs
      have hf := St.flush_eq hi.cinv
      refine ⟨?_, b2, ?_, ?_⟩
      · show s.cache.flush.limitOn = true; rw [hf]; exact b1
      · right; refine ⟨⟨0, 0⟩, Or.inr ?_⟩
        show s.cache.flush.path = []; rw [hf]; rfl
      · intro k i _; right; show s.cache.flush.path = []; rw [hf]; rfl
    · cases hs
  | remove fd =>
    simp only [Sys.step] at hs
    split at hs
    · cases hs
      have hp : (s.cache.removeField fd).path = s.cache.path.filter (fun k => !decide (k.field = fd)) := by
        simp [St.path, St.removeField]
      have hm : (s.cache.removeField fd).memUse ≤ s.cache.memUse := by
        show s.cache.memUse - St.total s.cache.size _ ≤ _
        have := St.total_nonneg s.cache.size ((s.cache.pre ++ s.cache.post).filter (fun k => decide (k.field = fd)))
        omega
      refine ⟨b1, b2, ?_, ?_⟩
      · rcases b3 with b3 | ⟨k, b3⟩
        · left
          show (s.cache.removeField fd).memUse ≤ s.cache.maxMem
          omega
        · right
          refine ⟨k, ?_⟩
          show (s.cache.removeField fd).path = _ ∨ (s.cache.removeField fd).path = _
          rw [hp]
          rcases b3 with b3 | b3 <;> rw [b3]
          · by_cases hk : k.field = fd <;> simp [hk]
          · simp
      · intro k i ht
        rcases b4 k i ht with b4 | b4
        · left
          show (s.cache.removeField fd).memUse + s.cache.size k ≤ s.cache.maxMem
          omega
        · right
          show (s.cache.removeField fd).path = _
          rw [hp, b4]; rfl
    · cases hs
  | run t =>
    simp only [Sys.step, Sys.runStep] at hs
    split at hs
    · cases hs
    · cases hs
    · rename_i k i ht
      have hts : (s.threads[t]?).isSome := by rw [ht]; rfl
      split at hs
      · cases hs
        exact bounded_goto hb0 t _ (by simp) _ _ _ rfl rfl rfl rfl hts
      · cases hs
        exact bounded_goto hb0 t _ (by simp) _ _ _ rfl rfl rfl rfl hts
    · rename_i k i ht
      have hts : (s.threads[t]?).isSome := by rw [ht]; rfl
      split at hs
      · cases hs
        exact bounded_goto hb0 t _ (by simp) _ _ _ rfl rfl rfl rfl hts
      · cases hs
    · rename_i k i ht
      have hlt := Sys.lt_of_get ht
      have ht0 : t = 0 := by omega
      subst ht0
      split at hs
      · cases hs
        obtain ⟨e1, e2, e3, e4, e5, e6⟩ := St.evictIter_const s.cache
        refine ⟨?_, b2, ?_, ?_⟩
        · show s.cache.evictIter.limitOn = true; rw [e5]; exact b1
        · rcases b3 with b3 | ⟨x, b3⟩
          · left
            show s.cache.evictIter.memUse ≤ s.cache.evictIter.maxMem
            have := St.evictIter_memUse_le s.cache
            rw [e4]; omega
          · right
            refine ⟨x, ?_⟩
            show s.cache.evictIter.path = _ ∨ s.cache.evictIter.path = _
            have hsub : ∀ y ∈ s.cache.evictIter.path, y = x := by
              intro y hy
              have := St.iter_sub hi.cinv.nodup hy
              rcases b3 with b3 | b3 <;> rw [b3] at this <;> simp at this
              exact this
            have hnd := St.iter_nodup hi.cinv.nodup
            cases hp : s.cache.evictIter.path with
            | nil => exact Or.inr rfl
            | cons a l =>
              left
              rw [hp] at hsub hnd
              have ha := hsub a (by simp)
              cases l with
              | nil => rw [ha]
              | cons b l =>
                have hb' := hsub b (by simp)
                rw [List.nodup_cons] at hnd
                exact absurd (show a ∈ b :: l by rw [ha, hb']; simp) hnd.1
        · intro k2 i2 h2
          have h2' : s.threads[0]? = some (.at .load k2 i2) := h2
          rw [ht] at h2'; cases h2'
      · rename_i hc
        cases hs
        have hc' : s.cache.evictCond (s.cache.size k) = false := by simpa using hc
        refine ⟨b1, by simpa [Sys.goto] using b2, b3, ?_⟩
        intro k2 i2 h2
        have h2' : (s.threads.set 0 (.at .load k i))[0]? = some (.at .load k2 i2) := h2
        rw [Sys.get_set ht, if_pos rfl] at h2'
        cases h2'
        show s.cache.memUse + s.cache.size k ≤ s.cache.maxMem ∨ s.cache.path = []
        by_cases hp : s.cache.path = []
        · exact Or.inr hp
        · left
          have : ¬ s.cache.evictCond (s.cache.size k) = true := by rw [hc']; simp
          rw [St.evictCond_iff] at this
          have h3 := not_and.mp this hp
          omega
    · rename_i k i ht
      have hlt := Sys.lt_of_get ht
      have ht0 : t = 0 := by omega
      subst ht0
      have hb4 := b4 k i ht
      split at hs
      · cases hs
        obtain ⟨e1, e2, e3, e4, e5⟩ := St.loadLocked_const (file := file) s.cache k
        refine ⟨?_, by simpa [Sys.goto] using b2, ?_, ?_⟩
        · show (s.cache.loadLocked file k).limitOn = true; rw [e5]; exact b1
        · show (s.cache.loadLocked file k).memUse ≤ (s.cache.loadLocked file k).maxMem ∨
            ∃ x, (s.cache.loadLocked file k).path = [x] ∨ (s.cache.loadLocked file k).path = []
          cases hf : s.cache.flag k with
          | true => rw [St.loadLocked_of_flag hf]; exact b3
          | false =>
            rw [St.loadLocked_eq hf]
            rcases hb4 with hb4 | hb4
            · left; exact hb4
            · right
              refine ⟨k, Or.inl ?_⟩
              show s.cache.post ++ (s.cache.pre ++ [k]) = [k]
              rw [← List.append_assoc]
              show s.cache.path ++ [k] = [k]
              rw [hb4]; rfl
        · intro k2 i2 h2
          have h2' : (s.threads.set 0 (.at .mark k i))[0]? = some (.at .load k2 i2) := h2
          rw [Sys.get_set ht, if_pos rfl] at h2'
          cases h2'
      · cases hs
    · rename_i k i ht
      have hts : (s.threads[t]?).isSome := by rw [ht]; rfl
      cases hs
      exact bounded_goto hb0 t _ (by simp) { s.cache with used := upd s.cache.used k true } _ _
        rfl rfl rfl rfl hts
    · rename_i k i ht
      have hts : (s.threads[t]?).isSome := by rw [ht]; rfl
      cases hs
      exact bounded_goto hb0 t _ (by simp) _ _ _ rfl rfl rfl rfl hts
    · rename_i k i ht
      have hts : (s.threads[t]?).isSome := by rw [ht]; rfl
      cases hs
      refine bounded_goto hb0 t _ (by simp) _ _ _ ?_ ?_ ?_ ?_ hts <;>
        (unfold St.decRef; split <;> rfl)

theorem bounded_reach {file : Key → List α} {stored : Key → Bool} {size : Key → Nat} {maxMem : Int}
    (h0 : 0 ≤ maxMem) {s : Sys α} (h : Reaches file limitUntouched (Sys.init 1 stored size maxMem true) s) :
    Bounded s ∧ s.cache.maxMem = maxMem ∧ Sys.SInv file s := by
  have hinv := reaches_inv h (Sys.inv_init 1 stored size maxMem true)
  refine ⟨?_, ?_, hinv⟩
  · induction h with
    | refl =>
      refine ⟨rfl, rfl, Or.inl h0, ?_⟩
      intro k i h; cases h
    | step e hr hok he ih =>
      have hi := reaches_inv hr (Sys.inv_init 1 stored size maxMem true)
      exact bounded_step hi (ih hi) e hok he
  · clear hinv
    induction h with
    | refl => rfl
    | @step s s' e hr hok he ih =>
      rw [← ih]
      cases e with
      | setMax m => exact absurd rfl (hok.1 m)
      | setLimit b => exact absurd rfl (hok.2 b)
      | start t k i =>
        simp only [Sys.step] at he
        split at he <;> cases he
        show (s.cache.incRef k).maxMem = _
        unfold St.incRef; split <;> rfl
      | flush =>
        simp only [Sys.step] at he
        split at he <;> cases he
        have hi := reaches_inv hr (Sys.inv_init 1 stored size maxMem true)
        show s.cache.flush.maxMem = _
        rw [St.flush_eq hi.cinv]
      | remove fd =>
        simp only [Sys.step] at he
        split at he <;> cases he
        rfl
      | run t =>
        simp only [Sys.step, Sys.runStep] at he
        split at he <;> try cases he
        · split at he
          · split at he <;> cases he <;> rfl
          · cases he; rfl
        · split at he <;> cases he; rfl
        · split at he <;> cases he
          · exact (St.evictIter_const s.cache).2.2.2.1
          · rfl
        · split at he <;> cases he
          exact (St.loadLocked_const (file := file) s.cache _).2.2.2.1
        · rfl
        · rfl
        · show (s.cache.decRef _).maxMem = _
          unfold St.decRef; split <;> rfl

/-- One reader, limiting on: at every moment the loaded blocks fit into the limit, or a single block is
loaded (which is then larger than the limit). -/
theorem C25_single_reader_within_limit (file : Key → List α) (stored : Key → Bool) (size : Key → Nat)
    (maxMem : Int) (h0 : 0 ≤ maxMem) (s : Sys α)
    (h : Reaches file limitUntouched (Sys.init 1 stored size maxMem true) s) :
    s.cache.memUse ≤ maxMem ∨ ∃ k, cacheList s.cache = [k] ∧ s.cache.memUse = s.cache.size k := by
  obtain ⟨⟨_, _, b3, _⟩, hm, hi⟩ := bounded_reach h0 h
  rw [hm] at b3
  rcases b3 with b3 | ⟨k, b3 | b3⟩
  · exact Or.inl b3
  · right
    refine ⟨k, ?_, ?_⟩
    · have : (cacheList s.cache).Perm [k] := by rw [← b3]; exact List.perm_append_comm
      exact List.perm_singleton.mp this
    · rw [hi.cinv.mem_use, b3]; simp [St.total]
  · left
    rw [hi.cinv.mem_use, b3]; simpa [St.total] using h0

/-! ## C26 -/

/-- The list of cached blocks has no duplicates and consists of exactly the blocks that are flagged as
loaded, which are exactly the ones that hold data, namely that of the file. -/
theorem C26_list_flags_data_agree (file : Key → List α) (n : Nat) (stored : Key → Bool)
    (size : Key → Nat) (maxMem : Int) (limitOn : Bool) (s : Sys α)
    (h : Reaches file anyEvent (Sys.init n stored size maxMem limitOn) s) :
    (cacheList s.cache).Nodup ∧
    (∀ k, k ∈ cacheList s.cache ↔ s.cache.flag k = true) ∧
    (∀ k, s.cache.flag k = true → s.cache.data k = some (file k)) ∧
    (∀ k, s.cache.flag k = false → s.cache.data k = none) := by
  have hinv := reaches_inv h (Sys.inv_init n stored size maxMem limitOn)
  have hp : (cacheList s.cache).Perm s.cache.path := List.perm_append_comm
  refine ⟨hp.nodup_iff.mpr hinv.cinv.nodup, ?_, ?_, ?_⟩
  · intro k; rw [hp.mem_iff]; exact hinv.cinv.mem k
  · intro k hk; rw [hinv.cinv.data, hk]; rfl
  · intro k hk; rw [hinv.cinv.data, hk]; rfl

/-! ## C27 -/

/-- No step of any thread, no limit change and no removal of a field unloads a block that some thread
is reading. -/
theorem C27_pinned_stays_loaded (file : Key → List α) (n : Nat) (stored : Key → Bool)
    (size : Key → Nat) (maxMem : Int) (limitOn : Bool) (s s' : Sys α) (e : Event)
    (h : Reaches file anyEvent (Sys.init n stored size maxMem limitOn) s)
    (he : s.step file e = some s') (hf : e ≠ .flush) (t : Nat) (k : Key) (hr : Reading s t k)
    (hk : s.cache.data k = some (file k)) : s'.cache.data k = some (file k) := by
  have hinv := reaches_inv h (Sys.inv_init n stored size maxMem limitOn)
  obtain ⟨ph, i, ht⟩ := hr
  have hpos := Sys.users_pos hinv ht
  cases e with
  | flush => exact absurd rfl hf
  | setMax m => simp only [Sys.step] at he; cases he; exact hk
  | setLimit b => simp only [Sys.step] at he; cases he; exact hk
  | start t k i =>
    simp only [Sys.step] at he
    split at he <;> cases he
    show (s.cache.incRef _).data _ = _
    unfold St.incRef; split <;> exact hk
  | remove fd =>
    simp only [Sys.step] at he
    split at he
    · rename_i hg
      cases he
      have := List.all_eq_true.mp hg.2 _ (List.mem_of_getElem? ht)
      simp only [decide_eq_true_eq] at this
      show (if k.field = fd then none else s.cache.data k) = _
      rw [if_neg this]; exact hk
    · cases he
  | run t =>
    simp only [Sys.step, Sys.runStep] at he
    split at he <;> try cases he
    · split at he
      · split at he <;> cases he <;> exact hk
      · cases he; exact hk
    · split at he <;> cases he; exact hk
    · split at he <;> cases he
      · show s.cache.evictIter.data k = _
        rw [(St.evictIter_keeps hpos).2]; exact hk
      · exact hk
    · split at he <;> cases he
      rename_i k2 _ _ _
      show (s.cache.loadLocked file k2).data k = _
      cases hf : s.cache.flag k2 with
      | true => rw [St.loadLocked_of_flag hf]; exact hk
      | false =>
        rw [St.loadLocked_eq hf]
        show upd s.cache.data k2 (some (file k2)) k = _
        unfold upd
        split
        · rename_i h; rw [h]
        · exact hk
    · exact hk
    · exact hk
    · show (s.cache.decRef _).data k = _
      unfold St.decRef; split <;> exact hk

/-- For any number of threads and any interleaving: a reader that has activated its block (and stands
before the access, or before unpinning) finds the file's data in it. -/
theorem C27_reader_finds_block (file : Key → List α) (n : Nat) (stored : Key → Bool)
    (size : Key → Nat) (maxMem : Int) (limitOn : Bool) (s : Sys α)
    (h : Reaches file flushBetweenReads (Sys.init n stored size maxMem limitOn) s)
    (t : Nat) (k : Key) (i : Nat) (ht : s.threads[t]? = some (.at .read k i)) :
    s.cache.data k = some (file k) := by
  have hinv := reaches_inv h (Sys.inv_init n stored size maxMem limitOn)
  have hs := reaches_safe h (Sys.inv_init _ _ _ _ _) (safe_init n stored size maxMem limitOn)
  rw [hinv.cinv.data, hs.act _ _ _ _ ht (by simp)]; rfl

/-- A flush does not honour pins: there is a history, with a flush between a reader's activation and its
access, in which a read of a stored voxel finds no data. -/
theorem C27_flush_breaks_reader : ∃ (file : Key → List Nat) (s : Sys Nat),
    Reaches file anyEvent (Sys.init 1 (fun _ => true) (fun _ => 8) 100 true) s ∧
    (⟨0, 0⟩, 1, none) ∈ s.log ∧ (file ⟨0, 0⟩)[1]? = some 5 := by
  let file : Key → List Nat := fun _ => [4, 5]
  let es : List Event := [.start 0 ⟨0, 0⟩ 1, .run 0, .run 0, .run 0, .run 0, .run 0, .flush, .run 0]
  have hex : ((Sys.init 1 (fun _ => true) (fun _ => 8) 100 true : Sys Nat).exec file es).map (·.log) =
      some [(⟨0, 0⟩, 1, none)] := by decide +kernel
  rw [Option.map_eq_some_iff] at hex
  obtain ⟨s, h1, h2⟩ := hex
  exact ⟨file, s, reaches_exec es _ _ .refl (fun _ _ => trivial) h1, by rw [h2]; simp, rfl⟩

/-! ## C28 -/

/-- With no pinned block in the list the eviction loop stops within two sweeps and leaves enough free
memory or an empty list. -/
theorem C28_eviction_terminates_unpinned (c : St α) (needed : Nat) (hn : (cacheList c).Nodup)
    (hp : ∀ k ∈ cacheList c, c.refs k ≤ 0) :
    ∃ victims n c', St.Evicts needed c victims n c' ∧ n ≤ 2 * (cacheList c).length ∧
      (needed ≤ c'.maxMem - c'.memUse ∨ cacheList c' = []) := by
  have hperm : (cacheList c).Perm c.path := List.perm_append_comm
  obtain ⟨vs, n, c', h1, h2⟩ := St.evicts_unpinned (needed := needed) c.weight c (hperm.nodup_iff.mp hn)
    (by intro k hk; have := hp k (hperm.mem_iff.mpr hk); omega) rfl
  refine ⟨vs, n, c', h1, ?_, ?_⟩
  · have := St.weight_le c
    rw [hperm.length_eq]; omega
  · have := h1.end_cond
    by_cases hc : cacheList c' = []
    · exact Or.inr hc
    · left
      have h3 : ¬ c'.evictCond needed = true := by rw [this]; simp
      rw [St.evictCond_iff] at h3
      have hne : c'.path ≠ [] := by
        intro h; apply hc
        have : (cacheList c').Perm c'.path := List.perm_append_comm
        rw [h] at this; exact this.eq_nil
      have := not_and.mp h3 hne
      omega

/-- In general the loop stops exactly if no cached block is pinned or the limit leaves room beside the
pinned blocks. -/
theorem C28_eviction_terminates_iff (c : St α) (needed : Nat) (hn : (cacheList c).Nodup)
    (hm : c.memUse = sizeOf c (cacheList c)) :
    (∃ victims n c', St.Evicts needed c victims n c') ↔
      (∀ k ∈ cacheList c, c.refs k ≤ 0) ∨
      needed ≤ c.maxMem - sizeOf c ((cacheList c).filter (fun k => decide (c.refs k > 0))) := by
  have hperm : (cacheList c).Perm c.path := List.perm_append_comm
  have hn' := hperm.nodup_iff.mp hn
  have hm' : c.memUse = St.total c.size c.path := by rw [hm]; exact St.total_perm hperm
  have hpin : sizeOf c ((cacheList c).filter (fun k => decide (c.refs k > 0))) =
      St.total c.size c.pinned := St.total_perm (hperm.filter _)
  rw [hpin]
  constructor
  · rintro ⟨vs, n, c', h⟩
    obtain ⟨h1, h2, h3, h4⟩ := h.pins hm'
    by_cases hall : ∀ k ∈ cacheList c, c.refs k ≤ 0
    · exact Or.inl hall
    · right
      have hne : c'.path ≠ [] := by
        intro h
        apply hall
        intro k hk
        have hk' : k ∉ c.pinned := by
          rw [← h1.mem_iff]; unfold St.pinned; rw [h]; simp
        by_cases hr : c.refs k > 0
        · exact absurd (List.mem_filter.mpr ⟨hperm.mem_iff.mp hk, by simpa using hr⟩) hk'
        · omega
      have h5 : ¬ c'.evictCond needed = true := by rw [h.end_cond]; simp
      rw [St.evictCond_iff] at h5
      have h6 := not_and.mp h5 hne
      have h7 : St.total c'.size c'.pinned ≤ St.total c'.size c'.path := St.total_sub _ _
      rw [St.total_perm h1, h3] at h7
      rw [h2, h3, h4] at h6
      omega
  · rintro (h | h)
    · obtain ⟨vs, n, c', h1, _⟩ := C28_eviction_terminates_unpinned c needed hn h
      exact ⟨vs, n, c', h1⟩
    · exact St.evicts_of_room c.weight c.lead c hn' hm' h rfl rfl

/-- In particular: every cached block pinned and memory short — the loop never stops. -/
theorem C28_all_pinned_never_stops (c : St α) (needed : Nat) (hn : (cacheList c).Nodup)
    (hm : c.memUse = sizeOf c (cacheList c)) (hne : cacheList c ≠ [])
    (hp : ∀ k ∈ cacheList c, c.refs k > 0) (hs : c.maxMem - c.memUse < needed) :
    ¬ ∃ victims n c', St.Evicts needed c victims n c' := by
  rw [C28_eviction_terminates_iff c needed hn hm]
  rintro (h | h)
  · cases hl : cacheList c with
    | nil => exact hne hl
    | cons k l =>
      have h1 := h k (by rw [hl]; simp)
      have h2 := hp k (by rw [hl]; simp)
      omega
  · have : (cacheList c).filter (fun k => decide (c.refs k > 0)) = cacheList c := by
      rw [List.filter_eq_self]; intro k hk; simpa using hp k hk
    rw [this, ← hm] at h
    omega

/-- Two readers with room for one block can reach that state: the loop of the second spins for as long
as the first keeps its block pinned. -/
theorem C28_stuck_state_reachable : ∃ (file : Key → List Nat) (s : Sys Nat),
    Reaches file flushBetweenReads (Sys.init 2 (fun _ => true) (fun _ => 8) 8 true) s ∧
    s.threads[1]? = some (.at .evict ⟨0, 1⟩ 0) ∧
    ¬ ∃ victims n c', St.Evicts (s.cache.size ⟨0, 1⟩) s.cache victims n c' := by
  let file : Key → List Nat := fun _ => [4, 5]
  let es : List Event := [.start 0 ⟨0, 0⟩ 1, .run 0, .run 0, .run 0, .run 0, .start 1 ⟨0, 1⟩ 0, .run 1, .run 1]
  have hex : ((Sys.init 2 (fun _ => true) (fun _ => 8) 8 true : Sys Nat).exec file es).map
      (fun s => (s.threads[1]?, cacheList s.cache, s.cache.memUse, s.cache.refs ⟨0, 0⟩, s.cache.maxMem)) =
      some (some (.at .evict ⟨0, 1⟩ 0), [⟨0, 0⟩], 8, 1, 8) := by decide +kernel
  rw [Option.map_eq_some_iff] at hex
  obtain ⟨s, h1, h2⟩ := hex
  simp only [Prod.mk.injEq] at h2
  obtain ⟨a1, a2, a3, a4, a5⟩ := h2
  have hr : Reaches file anyEvent (Sys.init 2 (fun _ => true) (fun _ => 8) 8 true) s :=
    reaches_exec es _ _ .refl (fun _ _ => trivial) h1
  have hr' : Reaches file flushBetweenReads (Sys.init 2 (fun _ => true) (fun _ => 8) 8 true) s := by
    clear hr a1 a2 a3 a4 a5
    have hgen : ∀ (es : List Event) (u u' : Sys Nat), (∀ e ∈ es, e ≠ .flush) →
        Reaches file flushBetweenReads (Sys.init 2 (fun _ => true) (fun _ => 8) 8 true) u →
        u.exec file es = some u' →
        Reaches file flushBetweenReads (Sys.init 2 (fun _ => true) (fun _ => 8) 8 true) u' := by
      intro es
      induction es with
      | nil => intro u u' _ h he; cases he; exact h
      | cons e es ih =>
        intro u u' hne h he
        simp only [Sys.exec, Option.bind_eq_some_iff] at he
        obtain ⟨s1, g1, g2⟩ := he
        exact ih s1 u' (fun x hx => hne x (List.mem_cons_of_mem _ hx))
          (.step e h (fun hc => absurd hc (hne e (by simp))) g1) g2
    exact hgen es _ _ (by decide) .refl h1
  have hinv := reaches_inv hr (Sys.inv_init _ _ _ _ _)
  have hsz : s.cache.size ⟨0, 1⟩ = 8 := by
    have : ((Sys.init 2 (fun _ => true) (fun _ => 8) 8 true : Sys Nat).exec file es).map
      (fun s => s.cache.size ⟨0, 1⟩) = some 8 := by decide +kernel
    rw [h1] at this; simpa using this
  refine ⟨file, s, hr', a1, ?_⟩
  have hacc := C25_accounted_is_loaded file 2 _ _ _ _ s hr
  apply C28_all_pinned_never_stops s.cache _ hacc.2.1 hacc.1
  · rw [a2]; simp
  · rw [a2]; intro k hk; simp at hk; rw [hk, a4]; decide
  · rw [a3, a5, hsz]; decide

/-! ## C29 -/

/-- The blocks freed by one eviction call are, in order, an initial part of: the unpinned blocks not
used since the hand last passed, in the order of the hand, followed by the unpinned used ones in the
order of the hand. So a recently used block goes only after every unused one. -/
theorem C29_victims_in_second_chance_order (c c' : St α) (needed : Nat) (victims : List Key) (n : Nat)
    (hn : (cacheList c).Nodup) (h : St.Evicts needed c victims n c') :
    victims <+: (handPath c).filter (fun k => decide (c.refs k ≤ 0) && !c.used k) ++
      (handPath c).filter (fun k => decide (c.refs k ≤ 0) && c.used k) := by
  have hperm : (cacheList c).Perm c.path := List.perm_append_comm
  have := (h.nodup_order (hperm.nodup_iff.mp hn)).1
  have hd : (fun k => decide (c.refs k ≤ 0)) = fun k => decide (¬ c.refs k > 0) := by
    funext k; by_cases hk : c.refs k ≤ 0 <;> simp
  have he : c.order = (handPath c).filter (fun k => decide (c.refs k ≤ 0) && !c.used k) ++
      (handPath c).filter (fun k => decide (c.refs k ≤ 0) && c.used k) := by
    unfold St.order
    congr 1 <;> (apply List.filter_congr; intro k _; simp)
  rw [← he, this]
  exact List.prefix_append _ _

/-- No more is freed than needed: before each of the victims was freed, memory was short. -/
theorem C29_no_more_than_needed (c c' : St α) (needed : Nat) (victims : List Key) (n : Nat)
    (hn : (cacheList c).Nodup) (h : St.Evicts needed c victims n c') :
    c'.memUse = c.memUse - sizeOf c victims ∧
    ∀ p q, victims = p ++ q → q ≠ [] → c.maxMem - (c.memUse - sizeOf c p) < needed := by
  have hperm : (cacheList c).Perm c.path := List.perm_append_comm
  have hn' := hperm.nodup_iff.mp hn
  exact ⟨(h.nodup_order hn').2.2.1, fun p q he hq => h.minimal hn' p q he hq⟩

/-- A used block is not freed while an unused, unpinned block remains. -/
theorem C29_used_after_unused (c c' : St α) (needed : Nat) (victims : List Key) (n : Nat)
    (hn : (cacheList c).Nodup) (h : St.Evicts needed c victims n c') (a b : Key)
    (ha : a ∈ victims) (hu : c.used a = true)
    (hb : b ∈ cacheList c) (hbr : c.refs b ≤ 0) (hbu : c.used b = false) :
    ∃ p q, victims = p ++ q ∧ b ∈ p ∧ a ∈ q := by
  obtain ⟨rest, hrest⟩ := C29_victims_in_second_chance_order c c' needed victims n hn h
  generalize hU : (handPath c).filter (fun k => decide (c.refs k ≤ 0) && !c.used k) = U at hrest
  have haU : a ∉ U := by rw [← hU]; simp [hu]
  have hbU : b ∈ U := by
    rw [← hU, List.mem_filter]
    refine ⟨?_, by simp [hbr, hbu]⟩
    unfold handPath; unfold cacheList at hb; simp at hb ⊢; exact hb.symm
  have hlen : U.length ≤ victims.length := by
    rcases Nat.lt_or_ge victims.length U.length with hlt | hge
    · exfalso
      have h1 := congrArg (List.take victims.length) hrest
      rw [List.take_left, List.take_append_of_le_length (by omega)] at h1
      rw [h1] at ha
      exact haU (List.mem_of_mem_take ha)
    · exact hge
  have h1 := congrArg (List.take U.length) hrest
  rw [List.take_append_of_le_length hlen, List.take_left] at h1
  refine ⟨victims.take U.length, victims.drop U.length, (List.take_append_drop _ _).symm, ?_, ?_⟩
  · rw [h1]; exact hbU
  · have : a ∈ victims.take U.length ++ victims.drop U.length := by
      rw [List.take_append_drop]; exact ha
    rw [List.mem_append, h1] at this
    exact this.resolve_left haU

/-- A freshly loaded block is the last one the hand will meet; loading a loaded block changes nothing. -/
theorem C29_loaded_block_is_met_last (file : Key → List α) (c : St α) (k : Key) :
    handPath (c.loadLocked file k) = if c.flag k then handPath c else handPath c ++ [k] := by
  cases hf : c.flag k with
  | true => rw [St.loadLocked_of_flag hf]; simp
  | false => rw [St.loadLocked_eq hf]; simp [handPath]

/-! ## Non-vacuity -/

/-- Eviction of a cache with a pinned, a used and two unused blocks: the hand is at block 3. -/
example : ∃ n c', St.Evicts 20 ({ St.init (fun _ => true) (fun _ => 8) 40 true with
      refs := fun k => if k.block = 1 then 1 else 0, used := fun k => k.block == 3,
      pre := [⟨0, 1⟩, ⟨0, 2⟩], post := [⟨0, 3⟩, ⟨0, 4⟩], memUse := 32 } : St Nat) [⟨0, 4⟩, ⟨0, 2⟩] n c' :=
  ⟨4, _, .turn (by decide +kernel) (by decide +kernel) (.free _ (by decide +kernel) (by decide +kernel)
    (by decide +kernel) (.turn (by decide +kernel) (by decide +kernel) (.free _ (by decide +kernel)
    (by decide +kernel) (by decide +kernel) (.stop (by decide +kernel)))))⟩

/-- A history with two fields, evictions, a flush and a limit change in which reads return. -/
example : ((Sys.init 1 (fun _ => true) (fun _ => 8) 16 true : Sys Nat).exec
    (fun k => [k.field, 10 * k.block])
    ([.start 0 ⟨0, 1⟩ 1] ++ List.replicate 7 (.run 0) ++ [.start 0 ⟨1, 2⟩ 0] ++ List.replicate 7 (.run 0) ++
     [.start 0 ⟨0, 3⟩ 1] ++ List.replicate 10 (.run 0) ++ [.flush, .setMax 4, .start 0 ⟨0, 1⟩ 1] ++
     List.replicate 7 (.run 0))).map (fun s => (s.log, s.threads, cacheList s.cache, s.cache.memUse)) =
    some ([(⟨0, 1⟩, 1, some 10), (⟨1, 2⟩, 0, some 1), (⟨0, 3⟩, 1, some 30), (⟨0, 1⟩, 1, some 10)],
      [.idle], [⟨0, 1⟩], 8) := by decide +kernel

end F3D.Props

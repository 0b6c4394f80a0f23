import Verif.Proofs.Cache
import Verif.Spec.CacheStats

/-! Lemmas for the statistics of the block cache. -/

namespace F3D
namespace Cache
open F3D.Spec.CacheStats
variable {α : Type}

/-! ## One step -/

/-- A step loads one block, removes a field, or only drops blocks. -/
inductive Shape (e : Event) (c c' : St α) : Prop where
  | load (k : Key) : (∀ fd, e ≠ .remove fd) → c.flag k = false → c.stored k = true →
      c'.flag = upd c.flag k true → c'.loads = upd c.loads k (c.loads k + 1) → c'.stored = c.stored →
      Shape e c c'
  | remove (fd : Nat) : e = .remove fd → c' = c.removeField fd → Shape e c c'
  | drop : (∀ fd, e ≠ .remove fd) → (∀ k, c'.flag k = true → c.flag k = true) →
      c'.loads = c.loads → c'.stored = c.stored → Shape e c c'

theorem evictIter_flag (c : St α) (k : Key) (h : c.evictIter.flag k = true) : c.flag k = true := by
  cases hp : c.path with
  | nil => rw [St.evictIter_nil hp] at h; exact h
  | cons x rest =>
    by_cases hr : c.refs x > 0
    · obtain ⟨p, q, e, _⟩ := St.evictIter_pinned hp hr
      rw [e] at h; exact h
    · cases hu : c.used x with
      | true => obtain ⟨p, q, e, _⟩ := St.evictIter_used hp hr hu; rw [e] at h; exact h
      | false =>
        obtain ⟨p, q, e, _⟩ := St.evictIter_free hp hr hu
        rw [e] at h
        have h' : upd c.flag x false k = true := h
        unfold upd at h'
        split at h'
        · cases h'
        · exact h'

theorem shape_run {file : Key → List α} {s s' : Sys α} (h : Sys.SInv file s) (t : Nat)
    (hs : s.runStep file t = some s') : Shape (.run t) s.cache s'.cache := by
  unfold Sys.runStep at hs
  have hd : ∀ {c' : St α}, c'.flag = s.cache.flag → c'.loads = s.cache.loads → c'.stored = s.cache.stored →
      Shape (.run t) s.cache c' := fun e1 e2 e3 =>
    .drop (by simp) (fun k hk => by rw [← e1]; exact hk) e2 e3
  split at hs
  · cases hs
  · cases hs
  · split at hs
    · split at hs <;> cases hs <;> exact hd rfl rfl rfl
    · cases hs; exact hd rfl rfl rfl
  · split at hs
    · cases hs; exact hd rfl rfl rfl
    · cases hs
  · split at hs
    · cases hs
      obtain ⟨_, _, e3, _, _, e6⟩ := St.evictIter_const s.cache
      exact .drop (by simp) (evictIter_flag _) e6 e3
    · cases hs; exact hd rfl rfl rfl
  · rename_i k i ht
    split at hs
    · cases hs
      show Shape (.run t) s.cache (s.cache.loadLocked file k)
      cases hf : s.cache.flag k with
      | true => rw [St.loadLocked_of_flag hf]; exact hd rfl rfl rfl
      | false =>
        rw [St.loadLocked_eq hf]
        exact .load k (by simp) hf (h.keys _ _ _ _ ht) rfl rfl rfl
    · cases hs
  · cases hs; exact hd rfl rfl rfl
  · cases hs; exact hd rfl rfl rfl
  · rename_i k i ht
    cases hs
    have hst := h.keys _ _ _ _ ht
    have e : s.cache.decRef k = { s.cache with refs := upd s.cache.refs k (s.cache.refs k - 1) } := by
      unfold St.decRef; rw [if_pos hst]
    show Shape (.run t) s.cache (s.cache.decRef k)
    rw [e]; exact hd rfl rfl rfl

theorem shape_step {file : Key → List α} {s s' : Sys α} (h : Sys.SInv file s) (e : Event)
    (hs : s.step file e = some s') : Shape e s.cache s'.cache := by
  cases e with
  | run t => exact shape_run h t hs
  | start t k i =>
    simp only [Sys.step] at hs
    split at hs
    · rename_i hg
      cases hs
      have hd : s.cache.incRef k = { s.cache with refs := upd s.cache.refs k (s.cache.refs k + 1) } := by
        unfold St.incRef; rw [if_pos hg.2]
      show Shape _ s.cache (s.cache.incRef k)
      rw [hd]
      exact .drop (by simp) (fun _ h => h) rfl rfl
    · cases hs
  | flush =>
    simp only [Sys.step] at hs
    split at hs
    · cases hs
      show Shape _ s.cache s.cache.flush
      rw [St.flush_eq h.cinv]
      exact .drop (by simp) (fun _ h => by cases h) rfl rfl
    · cases hs
  | setMax m => simp only [Sys.step] at hs; cases hs; exact .drop (by simp) (fun _ h => h) rfl rfl
  | setLimit b => simp only [Sys.step] at hs; cases hs; exact .drop (by simp) (fun _ h => h) rfl rfl
  | remove fd =>
    simp only [Sys.step] at hs
    split at hs
    · cases hs; exact .remove fd rfl rfl
    · cases hs

namespace Mgr

/-! ## Invariant -/

/-- The block is one of the tables. -/
def has (m : Mgr α) (k : Key) : Prop := k.block < m.numBlocks k.field

structure MInv (file : Key → List α) (m : Mgr α) : Prop where
  sinv : m.sys.SInv file
  stored : ∀ k, m.sys.cache.stored k = true → m.has k
  flag : ∀ k, m.sys.cache.flag k = true → m.has k
  loads : ∀ k, m.sys.cache.loads k ≠ 0 → m.has k

theorem inMemory_eq {file : Key → List α} {m : Mgr α} (h : m.sys.SInv file) (k : Key) :
    inMemory m k = m.sys.cache.flag k := by
  unfold inMemory
  rw [h.cinv.data k]
  cases m.sys.cache.flag k <;> rfl

/-- What a call does to the counters and the set of loaded blocks. -/
theorem step_cases {file : Key → List α} {m m' : Mgr α} (c : Call) (hs : m.step file c = some m') :
    (c = .reset ∧ m' = m.resetStatistics) ∨
    (∃ fd s', c = .ev (.remove fd) ∧ m.sys.step file (.remove fd) = some s' ∧ m' = ⟨s', m.counts.set fd 0⟩) ∨
    (∃ e s', c = .ev e ∧ (∀ fd, e ≠ .remove fd) ∧ m.sys.step file e = some s' ∧ m' = ⟨s', m.counts⟩) := by
  cases c with
  | reset => left; simp only [step] at hs; cases hs; exact ⟨rfl, rfl⟩
  | ev e =>
    right
    cases e with
    | remove fd =>
      left
      simp only [step, Option.map_eq_some_iff] at hs
      obtain ⟨s', h1, h2⟩ := hs
      exact ⟨fd, s', rfl, h1, h2.symm⟩
    | start t k i =>
      right
      simp only [step, Option.map_eq_some_iff] at hs
      obtain ⟨s', h1, h2⟩ := hs
      exact ⟨_, s', rfl, by simp, h1, h2.symm⟩
    | run t =>
      right
      simp only [step, Option.map_eq_some_iff] at hs
      obtain ⟨s', h1, h2⟩ := hs
      exact ⟨_, s', rfl, by simp, h1, h2.symm⟩
    | flush =>
      right
      simp only [step, Option.map_eq_some_iff] at hs
      obtain ⟨s', h1, h2⟩ := hs
      exact ⟨_, s', rfl, by simp, h1, h2.symm⟩
    | setMax x =>
      right
      simp only [step, Option.map_eq_some_iff] at hs
      obtain ⟨s', h1, h2⟩ := hs
      exact ⟨_, s', rfl, by simp, h1, h2.symm⟩
    | setLimit x =>
      right
      simp only [step, Option.map_eq_some_iff] at hs
      obtain ⟨s', h1, h2⟩ := hs
      exact ⟨_, s', rfl, by simp, h1, h2.symm⟩

theorem numBlocks_set (m : Mgr α) (s' : Sys α) (fd f : Nat) :
    (⟨s', m.counts.set fd 0⟩ : Mgr α).numBlocks f = if f = fd then 0 else m.numBlocks f := by
  unfold numBlocks
  simp only [List.getD_eq_getElem?_getD, List.getElem?_set]
  by_cases h : fd = f
  · subst h; by_cases hl : fd < m.counts.length <;> simp [hl]
  · simp [h, Ne.symm h]

theorem minv_step {file : Key → List α} {m m' : Mgr α} (h : MInv file m) (c : Call)
    (hs : m.step file c = some m') : MInv file m' := by
  rcases step_cases c hs with ⟨rfl, rfl⟩ | ⟨fd, s', rfl, h1, rfl⟩ | ⟨e, s', rfl, hne, h1, rfl⟩
  · refine ⟨⟨⟨h.sinv.cinv.nodup, h.sinv.cinv.mem, h.sinv.cinv.data, h.sinv.cinv.mem_use⟩, h.sinv.refs, h.sinv.keys,
      h.sinv.locked, h.sinv.evicting⟩, h.stored, h.flag, ?_⟩
    intro k hk
    have hk' : (if k.block < m.numBlocks k.field then 0 else m.sys.cache.loads k) ≠ 0 := hk
    split at hk'
    · exact absurd rfl hk'
    · exact h.loads k hk'
  · have hc : s'.cache = m.sys.cache.removeField fd := by
      cases shape_step h.sinv _ h1 with
      | load k hn => exact absurd rfl (hn fd)
      | remove fd' he hc => cases he; exact hc
      | drop hn => exact absurd rfl (hn fd)
    refine ⟨Sys.inv_step h.sinv _ h1, ?_, ?_, ?_⟩
    all_goals
      intro k hk
      unfold has
      rw [numBlocks_set]
      simp only [hc] at hk
    · have hk' : (if k.field = fd then false else m.sys.cache.stored k) = true := hk
      split at hk'
      · cases hk'
      · rename_i hf; rw [if_neg hf]; exact h.stored k hk'
    · have hk' : (if k.field = fd then false else m.sys.cache.flag k) = true := hk
      split at hk'
      · cases hk'
      · rename_i hf; rw [if_neg hf]; exact h.flag k hk'
    · have hk' : (if k.field = fd then 0 else m.sys.cache.loads k) ≠ 0 := hk
      split at hk'
      · exact absurd rfl hk'
      · rename_i hf; rw [if_neg hf]; exact h.loads k hk'
  · have hi := Sys.inv_step h.sinv _ h1
    cases shape_step h.sinv _ h1 with
    | remove fd he => exact absurd he (hne fd)
    | load k _ hf hst e1 e2 e3 =>
      refine ⟨hi, ?_, ?_, ?_⟩
      · intro x hx; simp only [e3] at hx; exact h.stored x hx
      · intro x hx
        simp only [e1] at hx
        by_cases hxk : x = k
        · subst hxk; exact h.stored x hst
        · rw [upd_ne _ _ hxk] at hx; exact h.flag x hx
      · intro x hx
        simp only [e2] at hx
        by_cases hxk : x = k
        · subst hxk; exact h.stored x hst
        · rw [upd_ne _ _ hxk] at hx; exact h.loads x hx
    | drop _ e1 e2 e3 =>
      refine ⟨hi, ?_, ?_, ?_⟩
      · intro x hx; simp only [e3] at hx; exact h.stored x hx
      · intro x hx; exact h.flag x (e1 x hx)
      · intro x hx; simp only [e2] at hx; exact h.loads x hx

theorem minv_init {file : Key → List α} (n : Nat) (counts : List Nat) (stored : Key → Bool)
    (size : Key → Nat) (mx : Int) (b : Bool) : MInv file (init n counts stored size mx b : Mgr α) := by
  refine ⟨Sys.inv_init _ _ _ _ _, ?_, ?_, ?_⟩
  · intro k hk
    have hk' : (decide (k.block < counts.getD k.field 0) && stored k) = true := hk
    rw [Bool.and_eq_true, decide_eq_true_eq] at hk'
    exact hk'.1
  · intro k hk; cases hk
  · intro k hk; exact absurd rfl hk

/-! ## Counters against the history -/

theorem times_snoc (k : Key) (h : History α) (e : Mgr α × Call × Mgr α) :
    timesLoaded k (h ++ [e]) = if e.2.1 = .reset ∨ e.2.1 = .ev (.remove k.field) then 0
      else if arrives k e then timesLoaded k h + 1 else timesLoaded k h := by
  simp [timesLoaded, List.foldl_append]

theorem steps_snoc (h : History α) (e : Mgr α × Call × Mgr α) :
    stepsThatLoad (h ++ [e]) = @ite _ (e.2.1 = .reset) (Classical.propDecidable _) 0
      (@ite _ (∃ k, arrives k e = true) (Classical.propDecidable _) (stepsThatLoad h + 1) (stepsThatLoad h)) := by
  simp [stepsThatLoad, List.foldl_append]

theorem arrives_iff {file : Key → List α} {m m' : Mgr α} (h : MInv file m) (h' : MInv file m') (c : Call)
    (k : Key) : arrives k (m, c, m') = (!m.sys.cache.flag k && m'.sys.cache.flag k) := by
  simp only [arrives, inMemory_eq h.sinv, inMemory_eq h'.sinv]

theorem runs_inv {file : Key → List α} {m₀ m : Mgr α} {h : History α} (h0 : MInv file m₀)
    (hr : Runs file m₀ h m) : MInv file m := by
  induction hr with
  | start => exact h0
  | step c _ hs ih => exact minv_step ih c hs

theorem loads_step {file : Key → List α} {m m' : Mgr α} (h : MInv file m) (c : Call)
    (hs : m.step file c = some m') (k : Key) :
    m'.sys.cache.loads k = if c = .reset ∨ c = .ev (.remove k.field) then 0
      else if arrives k (m, c, m') then m.sys.cache.loads k + 1 else m.sys.cache.loads k := by
  have h' := minv_step h c hs
  rw [arrives_iff h h']
  rcases step_cases c hs with ⟨rfl, rfl⟩ | ⟨fd, s', rfl, h1, rfl⟩ | ⟨e, s', rfl, hne, h1, rfl⟩
  · rw [if_pos (Or.inl rfl)]
    show (if k.block < m.numBlocks k.field then 0 else m.sys.cache.loads k) = 0
    split
    · rfl
    · rename_i hk
      exact Decidable.byContradiction fun h0 => hk (h.loads k h0)
  · have hc : s'.cache = m.sys.cache.removeField fd := by
      cases shape_step h.sinv _ h1 with
      | load k hn => exact absurd rfl (hn fd)
      | remove fd' he hc => cases he; exact hc
      | drop hn => exact absurd rfl (hn fd)
    simp only [hc]
    show (if k.field = fd then 0 else m.sys.cache.loads k) = _
    by_cases hf : k.field = fd
    · subst hf; rw [if_pos rfl, if_pos (Or.inr rfl)]
    · rw [if_neg hf, if_neg (by simp [Ne.symm hf]), if_neg]
      show ¬ (!m.sys.cache.flag k && (if k.field = fd then false else m.sys.cache.flag k)) = true
      rw [if_neg hf]; cases m.sys.cache.flag k <;> simp
  · have hne' : ¬ ((Call.ev e : Call) = .reset ∨ (Call.ev e : Call) = .ev (.remove k.field)) := by
      rintro (h | h)
      · cases h
      · cases h; exact hne _ rfl
    rw [if_neg hne']
    cases shape_step h.sinv _ h1 with
    | remove fd he => exact absurd he (hne fd)
    | load x _ hf hst e1 e2 e3 =>
      simp only [e1, e2]
      by_cases hxk : k = x
      · subst hxk; simp [upd_same, hf]
      · rw [upd_ne _ _ hxk, upd_ne _ _ hxk]
        cases m.sys.cache.flag k <;> simp
    | drop _ e1 e2 e3 =>
      simp only [e2]
      rw [if_neg]
      intro hk
      rw [Bool.and_eq_true] at hk
      have := e1 k hk.2
      rw [this] at hk; simp at hk

/-- The counter of a block counts how often it came into memory. -/
theorem loads_eq {file : Key → List α} {m₀ m : Mgr α} {h : History α} (h0 : MInv file m₀)
    (hz : ∀ k, m₀.sys.cache.loads k = 0) (hr : Runs file m₀ h m) (k : Key) :
    m.sys.cache.loads k = timesLoaded k h := by
  induction hr with
  | start => rw [hz]; rfl
  | step c hr' hs ih => rw [loads_step (runs_inv h0 hr') c hs, times_snoc, ih]

/-! ## Sums over the tables -/

/-- The blocks of the tables. -/
def blocks (m : Mgr α) : List Key :=
  (List.range m.counts.length).flatMap fun f => (List.range (m.numBlocks f)).map fun b => ⟨f, b⟩

theorem mem_blocks {m : Mgr α} {k : Key} : k ∈ m.blocks ↔ m.has k := by
  unfold blocks has
  simp only [List.mem_flatMap, List.mem_range, List.mem_map]
  constructor
  · rintro ⟨f, _, b, hb, rfl⟩; exact hb
  · intro h
    refine ⟨k.field, ?_, k.block, h, rfl⟩
    refine Decidable.byContradiction fun hl => ?_
    unfold numBlocks at h
    rw [List.getD_eq_getElem?_getD, List.getElem?_eq_none (by omega)] at h
    simp at h

theorem nodup_blocks (m : Mgr α) : m.blocks.Nodup := by
  unfold blocks
  unfold List.Nodup
  rw [List.pairwise_flatMap]
  constructor
  · intro f _
    rw [List.pairwise_map]
    refine List.Pairwise.imp ?_ (List.nodup_range (n := m.numBlocks f))
    intro a b hab he
    rw [Key.mk.injEq] at he
    exact hab he.2
  · refine List.Pairwise.imp ?_ (List.nodup_range (n := m.counts.length))
    intro a b hab k hk1 k2 hk2 he
    subst he
    simp only [List.mem_map] at hk1 hk2
    obtain ⟨x, _, rfl⟩ := hk1
    obtain ⟨y, _, hy⟩ := hk2
    rw [Key.mk.injEq] at hy
    exact hab hy.1.symm

theorem sum_zero (g : Key → Nat) (l : List Key) (h : ∀ k ∈ l, g k = 0) : (l.map g).sum = 0 := by
  induction l with
  | nil => rfl
  | cons a l ih =>
    rw [List.map_cons, List.sum_cons, h a (by simp), ih fun k hk => h k (by simp [hk])]

theorem sum_le (f g : Key → Nat) (l : List Key) (h : ∀ k ∈ l, f k ≤ g k) :
    (l.map f).sum ≤ (l.map g).sum := by
  induction l with
  | nil => exact Nat.le_refl _
  | cons a l ih =>
    have h1 := h a (by simp)
    have h2 := ih fun k hk => h k (by simp [hk])
    simp only [List.map_cons, List.sum_cons]; omega

theorem foldl_add {β : Type} (g : β → Nat) (l : List β) (n : Nat) :
    l.foldl (fun n x => n + g x) n = n + (l.map g).sum := by
  induction l generalizing n with
  | nil => simp
  | cons a l ih => simp only [List.foldl_cons, ih, List.map_cons, List.sum_cons]; omega

theorem foldl_count {β : Type} (p : β → Bool) (l : List β) (n : Nat) :
    l.foldl (fun n x => if p x = true then n + 1 else n) n = n + l.countP p := by
  induction l generalizing n with
  | nil => simp
  | cons a l ih =>
    simp only [List.foldl_cons, ih, List.countP_cons]
    split <;> omega

theorem totalLoads_eq (m : Mgr α) : m.totalLoads = (m.blocks.map fun k => m.sys.cache.loads k).sum := by
  unfold totalLoads blocks
  rw [foldl_add (fun f => refTotalLoads (m.loadCounts f))]
  rw [Nat.zero_add]
  generalize List.range m.counts.length = l
  induction l with
  | nil => rfl
  | cons f l ih =>
    simp only [List.map_cons, List.sum_cons, List.flatMap_cons, List.map_append, List.sum_append, ih]
    congr 1
    unfold refTotalLoads loadCounts
    rw [foldl_add (fun x => x)]
    simp [List.map_map, Function.comp_def]

theorem numLoaded_eq (m : Mgr α) : m.numLoadedBlocks = m.blocks.countP fun k => m.sys.cache.flag k := by
  unfold numLoadedBlocks blocks
  rw [foldl_add (fun f => refNumLoadedBlocks (m.blockLoaded f))]
  rw [Nat.zero_add]
  generalize List.range m.counts.length = l
  induction l with
  | nil => rfl
  | cons f l ih =>
    simp only [List.map_cons, List.sum_cons, List.flatMap_cons, List.countP_append, ih]
    congr 1
    unfold refNumLoadedBlocks blockLoaded
    rw [foldl_count (fun x => x), List.countP_map, List.countP_map]
    simp [Function.comp_def]

theorem zip_maps {β γ δ : Type} (f : β → γ) (g : β → δ) (l : List β) :
    (l.map f).zip (l.map g) = l.map fun x => (f x, g x) := by
  induction l with
  | nil => rfl
  | cons a l ih => simp only [List.map_cons, List.zip_cons_cons, ih]

theorem totalLoaded_eq (m : Mgr α) : m.totalLoadedBlocks =
    m.blocks.countP fun k => decide (m.sys.cache.loads k ≠ 0 ∨ m.sys.cache.flag k = true) := by
  unfold totalLoadedBlocks blocks
  rw [foldl_add (fun f => refTotalLoadedBlocks (m.loadCounts f) (m.blockLoaded f))]
  rw [Nat.zero_add]
  generalize List.range m.counts.length = l
  induction l with
  | nil => rfl
  | cons f l ih =>
    simp only [List.map_cons, List.sum_cons, List.flatMap_cons, List.countP_append, ih]
    congr 1
    unfold refTotalLoadedBlocks blockLoaded loadCounts
    simp only [List.length_map, List.length_range]
    split
    · rename_i h0; rw [h0]; rfl
    · rw [zip_maps]
      have := foldl_count (fun p : Nat × Bool => decide (p.1 ≠ 0 ∨ p.2 = true))
        ((List.range (m.numBlocks f)).map fun b => (m.sys.cache.loads ⟨f, b⟩, m.sys.cache.flag ⟨f, b⟩)) 0
      simp only [decide_eq_true_eq] at this
      rw [this, List.countP_map, List.countP_map, Nat.zero_add]
      rfl

theorem count_of {m : Mgr α} (p : Key → Bool) (hp : ∀ k, p k = true → m.has k) :
    Count (fun k => p k = true) (m.blocks.countP p) := by
  refine ⟨m.blocks.filter p, (nodup_blocks m).filter _, ?_, ?_⟩
  · intro k
    rw [List.mem_filter, mem_blocks]
    exact ⟨fun h => h.2, fun h => ⟨hp k h, h⟩⟩
  · rw [List.countP_eq_length_filter]

/-- A sum over a list without repetitions only depends on where the terms are not 0. -/
theorem sum_agree (g : Key → Nat) : ∀ (l l' : List Key), l.Nodup → l'.Nodup →
    (∀ k, g k ≠ 0 → (k ∈ l ↔ k ∈ l')) → (l.map g).sum = (l'.map g).sum := by
  have key : ∀ l : List Key, (l.map g).sum = ((l.filter fun k => decide (g k ≠ 0)).map g).sum := by
    intro l
    induction l with
    | nil => rfl
    | cons a l ih =>
      by_cases h : g a = 0
      · rw [List.filter_cons_of_neg (by simp [h])]; simp [h, ih]
      · rw [List.filter_cons_of_pos (by simp [h])]; simp [ih]
  intro l l' hl hl' hk
  rw [key l, key l']
  have hp : (l.filter fun k => decide (g k ≠ 0)).Perm (l'.filter fun k => decide (g k ≠ 0)) := by
    rw [List.perm_ext_iff_of_nodup (hl.filter _) (hl'.filter _)]
    intro k
    simp only [List.mem_filter, decide_eq_true_eq]
    constructor
    · rintro ⟨a, b⟩; exact ⟨(hk k b).mp a, b⟩
    · rintro ⟨a, b⟩; exact ⟨(hk k b).mpr a, b⟩
  exact (hp.map g).sum_nat

theorem sum_upd (g : Key → Nat) (k : Key) : ∀ l : List Key, l.Nodup → k ∈ l →
    (l.map (upd g k (g k + 1))).sum = (l.map g).sum + 1 := by
  intro l
  induction l with
  | nil => intro _ h; cases h
  | cons a l ih =>
    intro hn hk
    rw [List.nodup_cons] at hn
    simp only [List.map_cons, List.sum_cons]
    by_cases h : k = a
    · subst h
      have : l.map (upd g k (g k + 1)) = l.map g := by
        apply List.map_congr_left
        intro x hx
        exact upd_ne _ _ (fun e => hn.1 (e ▸ hx))
      rw [upd_same, this]; omega
    · rw [upd_ne _ _ (Ne.symm h), ih hn.2 (by simpa [h] using hk)]; omega

/-! ## Steps that load -/

theorem blocks_counts {m m' : Mgr α} (h : m'.counts = m.counts) : m'.blocks = m.blocks := by
  unfold blocks numBlocks; rw [h]

theorem totalLoads_step {file : Key → List α} {m m' : Mgr α} (h : MInv file m) (c : Call)
    (hs : m.step file c = some m') (n : Nat) :
    (m.totalLoads ≤ n → m'.totalLoads ≤ @ite _ (c = .reset) (Classical.propDecidable _) 0
      (@ite _ (∃ k, arrives k (m, c, m') = true) (Classical.propDecidable _) (n + 1) n)) ∧
    ((∀ fd, c ≠ .ev (.remove fd)) → m.totalLoads = n →
      m'.totalLoads = @ite _ (c = .reset) (Classical.propDecidable _) 0
      (@ite _ (∃ k, arrives k (m, c, m') = true) (Classical.propDecidable _) (n + 1) n)) := by
  have h' := minv_step h c hs
  have hld := loads_step h c hs
  by_cases hc : c = .reset
  · rw [if_pos hc]
    have : m'.totalLoads = 0 := by
      rw [totalLoads_eq]
      apply sum_zero
      intro k _
      rw [hld k, if_pos (Or.inl hc)]
    exact ⟨fun _ => by omega, fun _ _ => this⟩
  · rw [if_neg hc]
    rcases step_cases c hs with ⟨rfl, rfl⟩ | ⟨fd, s', rfl, h1, rfl⟩ | ⟨e, s', rfl, hne, h1, rfl⟩
    · exact absurd rfl hc
    · refine ⟨fun hle => ?_, fun hn => absurd rfl (hn fd)⟩
      have hle2 : (⟨s', m.counts.set fd 0⟩ : Mgr α).totalLoads ≤ m.totalLoads := by
        have e1 : (⟨s', m.counts.set fd 0⟩ : Mgr α).totalLoads = (m.blocks.map fun k => s'.cache.loads k).sum := by
          rw [totalLoads_eq]
          refine sum_agree (fun k => s'.cache.loads k) _ _ (nodup_blocks _) (nodup_blocks _) ?_
          intro k hk
          rw [mem_blocks, mem_blocks]
          have hk1 := h'.loads k hk
          refine ⟨fun _ => ?_, fun _ => hk1⟩
          unfold has at hk1 ⊢
          rw [numBlocks_set] at hk1
          split at hk1
          · omega
          · exact hk1
        rw [e1, totalLoads_eq]
        apply sum_le
        intro k hk
        have := hld k
        have hsh : s'.cache = m.sys.cache.removeField fd := by
          cases shape_step h.sinv _ h1 with
          | load k hn => exact absurd rfl (hn fd)
          | remove fd' he hc => cases he; exact hc
          | drop hn => exact absurd rfl (hn fd)
        rw [hsh]
        show (if k.field = fd then 0 else m.sys.cache.loads k) ≤ _
        split <;> omega
      split <;> omega
    · have hb : (⟨s', m.counts⟩ : Mgr α).blocks = m.blocks := blocks_counts rfl
      have heq : (⟨s', m.counts⟩ : Mgr α).totalLoads = @ite _ (∃ k, arrives k (m, Call.ev e, (⟨s', m.counts⟩ : Mgr α)) = true)
          (Classical.propDecidable _) (m.totalLoads + 1) m.totalLoads := by
        cases shape_step h.sinv _ h1 with
        | remove fd he => exact absurd he (hne fd)
        | load x _ hf hst e1 e2 e3 =>
          rw [if_pos ⟨x, by rw [arrives_iff h h', e1, upd_same, hf]; rfl⟩]
          rw [totalLoads_eq, hb]
          simp only [e2]
          rw [totalLoads_eq]
          exact sum_upd _ x _ (nodup_blocks m) (mem_blocks.mpr (h.stored x hst))
        | drop _ e1 e2 e3 =>
          rw [if_neg]
          · rw [totalLoads_eq, hb]; simp only [e2]; rw [totalLoads_eq]
          · rintro ⟨k, hk⟩
            rw [arrives_iff h h', Bool.and_eq_true] at hk
            have := e1 k hk.2
            rw [this] at hk; simp at hk
      refine ⟨fun hle => ?_, fun _ hn => ?_⟩
      · rw [heq]; split <;> omega
      · rw [heq, hn]

theorem totalLoads_steps {file : Key → List α} {m₀ m : Mgr α} {h : History α} (h0 : MInv file m₀)
    (hz : ∀ k, m₀.sys.cache.loads k = 0) (hr : Runs file m₀ h m) :
    m.totalLoads ≤ stepsThatLoad h ∧
    ((∀ fd, Without h (.ev (.remove fd))) → m.totalLoads = stepsThatLoad h) := by
  induction hr with
  | start =>
    have : m₀.totalLoads = 0 := by
      rw [totalLoads_eq]
      apply sum_zero
      intro k _
      exact hz k
    rw [this]; exact ⟨Nat.zero_le _, fun _ => rfl⟩
  | step c hr' hs ih =>
    obtain ⟨a, b⟩ := totalLoads_step (runs_inv h0 hr') c hs (stepsThatLoad _)
    refine ⟨?_, fun hw => ?_⟩
    · rw [steps_snoc]; exact a ih.1
    · rw [steps_snoc]
      refine b (fun fd => hw fd _ (List.mem_append_right _ (List.mem_singleton.mpr rfl))) (ih.2 fun fd e he => hw fd e (List.mem_append_left _ he))

/-! ## Without resets -/

theorem loaded_counted {file : Key → List α} {m₀ m : Mgr α} {h : History α} (h0 : MInv file m₀)
    (hf0 : ∀ k, m₀.sys.cache.flag k = false) (hr : Runs file m₀ h m) (hw : Without h .reset) (k : Key)
    (hk : m.sys.cache.flag k = true) : timesLoaded k h ≠ 0 := by
  induction hr with
  | start => rw [hf0] at hk; cases hk
  | @step h m m' c hr' hs ih =>
    have hi := runs_inv h0 hr'
    have hi' := minv_step hi c hs
    have hc : c ≠ .reset := hw _ (List.mem_append_right _ (List.mem_singleton.mpr rfl))
    have ih' := ih fun e he => hw e (List.mem_append_left _ he)
    rw [times_snoc]
    split
    · rename_i hcc
      rcases hcc with hcc | hcc
      · exact absurd hcc hc
      · exfalso
        have hcc' : c = .ev (.remove k.field) := hcc
        subst hcc'
        rcases step_cases _ hs with ⟨e, _⟩ | ⟨fd, s', e, h1, rfl⟩ | ⟨e, s', he, hne, _⟩
        · cases e
        · cases e
          cases shape_step hi.sinv _ h1 with
          | load k hn => exact absurd rfl (hn _)
          | remove fd' he hc =>
            cases he
            simp only [hc] at hk
            have hk' : (if k.field = k.field then false else m.sys.cache.flag k) = true := hk
            simp at hk'
          | drop hn => exact absurd rfl (hn _)
        · cases he; exact hne _ rfl
    · split
      · omega
      · rename_i ha
        apply ih'
        rw [arrives_iff hi hi', hk] at ha
        cases hfl : m.sys.cache.flag k with
        | true => rfl
        | false => rw [hfl] at ha; simp at ha

theorem countP_le_sum (g : Key → Nat) (l : List Key) :
    l.countP (fun k => decide (g k ≠ 0)) ≤ (l.map g).sum ∧
    (l.countP (fun k => decide (g k ≠ 0)) = (l.map g).sum ↔ ∀ k ∈ l, g k ≤ 1) := by
  induction l with
  | nil => simp
  | cons a l ih =>
    obtain ⟨h1, h2⟩ := ih
    simp only [List.countP_cons, List.map_cons, List.sum_cons, decide_eq_true_eq, List.forall_mem_cons]
    rw [← h2]
    generalize List.countP (fun k => decide (g k ≠ 0)) l = x at *
    generalize (l.map g).sum = y at *
    by_cases h : g a = 0
    · rw [if_neg (by simp [h]), h]; omega
    · rw [if_pos h]; omega

/-! ## Without a limit on memory -/

/-- No thread is about to evict, and a loaded block stays loaded. -/
structure Unlimited (m : Mgr α) : Prop where
  off : m.sys.cache.limitOn = false
  quiet : ∀ (t : Nat) ph k i, m.sys.threads[t]? = some (.at ph k i) → ph ≠ .dealloc ∧ ph ≠ .evict
  once : ∀ k, m.sys.cache.loads k ≤ 1 ∧ (m.sys.cache.loads k = 1 → m.sys.cache.flag k = true)

theorem quiet_set {l : List PC} {t : Nat} {pc : PC} (ht : l[t]? = some pc)
    (h : ∀ (t : Nat) ph k i, l[t]? = some (.at ph k i) → ph ≠ .dealloc ∧ ph ≠ .evict) (pc' : PC)
    (hp : ∀ ph k i, pc' = .at ph k i → ph ≠ .dealloc ∧ ph ≠ .evict) :
    ∀ (t' : Nat) ph k i, (l.set t pc')[t']? = some (.at ph k i) → ph ≠ .dealloc ∧ ph ≠ .evict := by
  intro t' ph k i h2
  rw [Sys.get_set ht] at h2
  split at h2
  · exact hp _ _ _ (Option.some.inj h2)
  · exact h _ _ _ _ h2

theorem unlimited_run {file : Key → List α} {s s' : Sys α} {n : List Nat} (hi : s.SInv file)
    (h : Unlimited ⟨s, n⟩) (t : Nat) (hs : s.runStep file t = some s') : Unlimited ⟨s', n⟩ := by
  obtain ⟨ho, hq, h1⟩ := h
  simp only at ho hq h1
  unfold Sys.runStep at hs
  split at hs
  · cases hs
  · cases hs
  · rename_i k i ht
    split at hs
    · rw [if_neg (by simp [ho])] at hs
      cases hs
      exact ⟨ho, quiet_set ht hq _ (by intro ph k i e; cases e; simp), h1⟩
    · cases hs
      exact ⟨ho, quiet_set ht hq _ (by intro ph k i e; cases e; simp), h1⟩
  · rename_i k i ht; exact absurd rfl (hq _ _ _ _ ht).1
  · rename_i k i ht; exact absurd rfl (hq _ _ _ _ ht).2
  · rename_i k i ht
    split at hs
    · cases hs
      obtain ⟨_, _, _, _, e5⟩ := St.loadLocked_const (file := file) s.cache k
      refine ⟨by show (s.cache.loadLocked file k).limitOn = false; rw [e5]; exact ho,
        quiet_set ht hq _ (by intro ph k i e; cases e; simp), ?_⟩
      show ∀ x, (s.cache.loadLocked file k).loads x ≤ 1 ∧
        ((s.cache.loadLocked file k).loads x = 1 → (s.cache.loadLocked file k).flag x = true)
      cases hf : s.cache.flag k with
      | true => rw [St.loadLocked_of_flag hf]; exact h1
      | false =>
        rw [St.loadLocked_eq hf]
        intro x
        show upd s.cache.loads k (s.cache.loads k + 1) x ≤ 1 ∧
          (upd s.cache.loads k (s.cache.loads k + 1) x = 1 → upd s.cache.flag k true x = true)
        by_cases hx : x = k
        · subst hx
          rw [upd_same, upd_same]
          have := h1 x
          rw [hf] at this
          have h0 : s.cache.loads x ≠ 1 := fun e => by have := this.2 e; cases this
          exact ⟨by omega, fun _ => rfl⟩
        · rw [upd_ne _ _ hx, upd_ne _ _ hx]; exact h1 x
    · cases hs
  · rename_i k i ht
    cases hs
    exact ⟨ho, quiet_set ht hq _ (by intro ph k i e; cases e; simp), h1⟩
  · rename_i k i ht
    cases hs
    exact ⟨ho, quiet_set ht hq _ (by intro ph k i e; cases e; simp), h1⟩
  · rename_i k i ht
    cases hs
    have hst := hi.keys _ _ _ _ ht
    have e : s.cache.decRef k = { s.cache with refs := upd s.cache.refs k (s.cache.refs k - 1) } := by
      unfold St.decRef; rw [if_pos hst]
    rw [e]
    exact ⟨ho, quiet_set ht hq _ (by intro ph k i e; cases e), h1⟩

theorem unlimited_step {file : Key → List α} {m m' : Mgr α} (hi : MInv file m) (h : Unlimited m) (c : Call)
    (hs : m.step file c = some m') (hf : c ≠ .ev .flush) (hl : c ≠ .ev (.setLimit true)) : Unlimited m' := by
  rcases step_cases c hs with ⟨rfl, rfl⟩ | ⟨fd, s', rfl, h1, rfl⟩ | ⟨e, s', rfl, hne, h1, rfl⟩
  · refine ⟨h.off, h.quiet, ?_⟩
    intro k
    show (if k.block < m.numBlocks k.field then 0 else m.sys.cache.loads k) ≤ 1 ∧
      ((if k.block < m.numBlocks k.field then 0 else m.sys.cache.loads k) = 1 → m.sys.cache.flag k = true)
    split
    · exact ⟨by omega, fun h => by omega⟩
    · exact h.once k
  · simp only [Sys.step] at h1
    split at h1
    · cases h1
      refine ⟨h.off, h.quiet, ?_⟩
      intro k
      show (if k.field = fd then 0 else m.sys.cache.loads k) ≤ 1 ∧
        ((if k.field = fd then 0 else m.sys.cache.loads k) = 1 →
          (if k.field = fd then false else m.sys.cache.flag k) = true)
      split
      · exact ⟨by omega, fun h => by omega⟩
      · exact h.once k
    · cases h1
  · cases e with
    | run t => exact unlimited_run hi.sinv h t h1
    | start t k i =>
      simp only [Sys.step] at h1
      split at h1
      · rename_i hg
        cases h1
        have hd : m.sys.cache.incRef k = { m.sys.cache with refs := upd m.sys.cache.refs k (m.sys.cache.refs k + 1) } := by
          unfold St.incRef; rw [if_pos hg.2]
        rw [hd]
        exact ⟨h.off, quiet_set hg.1 h.quiet _ (by intro ph k i e; cases e; simp), h.once⟩
      · cases h1
    | flush => exact absurd rfl hf
    | setMax x => simp only [Sys.step] at h1; cases h1; exact ⟨h.off, h.quiet, h.once⟩
    | setLimit b =>
      simp only [Sys.step] at h1; cases h1
      cases b with
      | true => exact absurd rfl hl
      | false => exact ⟨rfl, h.quiet, h.once⟩
    | remove fd => exact absurd rfl (hne fd)

end Mgr
end Cache
end F3D

import Verif.Proofs.WriteThreads

namespace F3D.BlockThreads

/-! ## Progress -/

/-- What is left for a thread to do, when the counter is at `w` of `n`. -/
def wweight (n w : Nat) : WPc → Nat
  | .fetch => 1
  | .wait _ => 9
  | .write _ => 8
  | .load => 7
  | .store _ => 6
  | .test => if w < n then 9 else 5
  | .flag => 8
  | .done => 0

def wmeasure (n : Nat) (s : WState) : Nat :=
  9 * (n - s.nextC) + 4 * (n - s.nextW) + (s.th.map (wweight n s.nextW)).sum

theorem wweight_mono {n w w' : Nat} (h : w < n → w ≤ w') (h' : n ≤ w → n ≤ w') (pc : WPc) :
    wweight n w' pc ≤ wweight n w pc := by
  cases pc <;> simp only [wweight, Nat.le_refl]
  split <;> split <;> omega

theorem sum_mono {α : Type} {f g : α → Nat} (h : ∀ a, f a ≤ g a) : ∀ l : List α, (l.map f).sum ≤ (l.map g).sum
  | [] => by simp
  | a :: l => by
    have := sum_mono h l; have := h a
    simp only [List.map_cons, List.sum_cons]; omega

/-- A thread that is not finished and not waiting for another makes progress. -/
theorem wmeasure_step {alloc : List Bool} (oob : Bool) {s : WState} (t : Nat) (pc : WPc) (ht : s.th[t]? = some pc)
    (hpc : pc ≠ .done) (hw : ∀ i, pc = .wait i → s.nextW = i)
    (hC : s.nextC < alloc.length → alloc[s.nextC]? = some true)
    (hst : ∀ v, pc = .store v → (s.nextW < alloc.length → s.nextW < v) ∧ (alloc.length ≤ s.nextW → alloc.length ≤ v)) :
    wmeasure alloc.length (s.step alloc oob t) < wmeasure alloc.length s := by
  unfold WState.step
  rw [ht]
  have key := fun b => sum_set (wweight alloc.length s.nextW) s.th t pc b ht
  cases pc with
  | done => exact absurd rfl hpc
  | fetch =>
    simp only [wmeasure]
    have n1 := (nextFrom_spec alloc (s.nextC + 1)).1
    have := key (taken alloc s.nextC)
    by_cases h : s.nextC < alloc.length
    · have e : taken alloc s.nextC = .wait s.nextC := by rw [taken, hC h]
      rw [e] at this ⊢
      simp only [wweight] at this ⊢; omega
    · have e : taken alloc s.nextC = .done := by rw [taken, List.getElem?_eq_none (by omega)]
      rw [e] at this ⊢
      simp only [wweight] at this ⊢; omega
  | wait i =>
    have := key (.write i)
    simp only [if_pos (hw i rfl), wmeasure]
    simp only [wweight] at this ⊢; omega
  | write i =>
    have := key .load
    simp only [wmeasure]
    simp only [wweight] at this ⊢; omega
  | load =>
    have := key (.store (s.nextW + 1))
    simp only [wmeasure]
    simp only [wweight] at this ⊢; omega
  | store v =>
    obtain ⟨a, b⟩ := hst v rfl
    have k := sum_set (wweight alloc.length v) s.th t (.store v) .test ht
    have m := sum_mono (wweight_mono (n := alloc.length) (w := s.nextW) (w' := v) (by omega) b) s.th
    simp only [wmeasure]
    by_cases h : v < alloc.length
    · simp only [wweight, if_pos h] at k; omega
    · simp only [wweight, if_neg h] at k; omega
  | test =>
    have := key (if s.nextW < alloc.length then .flag else .fetch)
    simp only [wmeasure]
    by_cases h : s.nextW < alloc.length
    · simp only [wweight, if_pos h] at this ⊢; omega
    · simp only [wweight, if_neg h] at this ⊢; omega
  | flag =>
    have := key (if (alloc[s.nextW]?).getD oob then .fetch else .load)
    simp only [wmeasure]
    by_cases h : (alloc[s.nextW]?).getD oob = true
    · simp only [wweight, if_pos h] at this ⊢; omega
    · simp only [wweight, if_neg h] at this ⊢; omega

/-! ## Schedules in which no thread runs while another moves the counter on -/

def Exclusive (alloc : List Bool) (oob : Bool) : WState → List Nat → Prop
  | _, [] => True
  | s, t :: ts => (∀ (u : Nat) (pc : WPc), s.th[u]? = some pc → pc.advancing = true → u = t) ∧
      Exclusive alloc oob (s.step alloc oob t) ts

theorem winv_run {alloc : List Bool} (oob : Bool) : ∀ (sched : List Nat) {s : WState}, WInv alloc s →
    Exclusive alloc oob s sched → WInv alloc (s.run alloc oob sched)
  | [], _, inv, _ => inv
  | t :: ts, _, inv, h => winv_run oob ts (winv_step oob inv t h.1) h.2

theorem wrun_length (alloc : List Bool) (oob : Bool) : ∀ (sched : List Nat) (s : WState),
    (s.run alloc oob sched).th.length = s.th.length
  | [], _ => rfl
  | t :: ts, s => by
    show ((s.step alloc oob t).run alloc oob ts).th.length = _
    rw [wrun_length alloc oob ts, wth_length]

/-- When all threads are finished every allocated block was written, in order. -/
theorem winv_finished {alloc : List Bool} {s : WState} (inv : WInv alloc s) (hT : 0 < s.th.length)
    (hf : s.finished) : s.log = written alloc alloc.length := by
  have hall : ∀ (u : Nat) (pc : WPc), s.th[u]? = some pc → pc = .done := by
    intro u pc h; exact hf pc (List.mem_of_getElem? h)
  obtain ⟨hl, hn, ha⟩ := inv.calm (by intro u pc h; rw [hall u pc h]; rfl)
  have h0 : s.th[0]? = some .done := by
    rw [List.getElem?_eq_getElem hT]
    exact congrArg some (hf _ (List.getElem_mem hT))
  have hdn := inv.dn 0 h0
  by_cases hw : s.nextW < alloc.length
  · exfalso
    rcases inv.cov s.nextW (ha hw) (by omega) with h | ⟨u, pc, h, hh⟩
    · rw [hl, mem_written] at h; omega
    · rw [hall u pc h] at hh; simp [WPc.holds] at hh
  · have : s.nextW = alloc.length := by omega
    rw [hl, this]

/-- What was written is always a beginning of the right result. -/
theorem winv_prefix {alloc : List Bool} {s : WState} (inv : WInv alloc s) :
    ∃ w, w ≤ alloc.length ∧ s.log = written alloc w := by
  by_cases h : ∀ (u : Nat) (pc : WPc), s.th[u]? = some pc → pc.advancing = false
  · exact ⟨s.nextW, (inv.calm h).2.1, (inv.calm h).1⟩
  · simp only [Classical.not_forall] at h
    obtain ⟨u, pc, h, ha⟩ := h
    cases pc with
    | load => exact ⟨s.nextW + 1, (inv.ld u h).2, (inv.ld u h).1⟩
    | store v => obtain ⟨a, b, c⟩ := inv.st u v h; exact ⟨v, by omega, b⟩
    | test => exact ⟨s.nextW, (inv.ts u h).2, (inv.ts u h).1⟩
    | flag => exact ⟨s.nextW, by have := (inv.fl u h).2; omega, (inv.fl u h).1⟩
    | _ => simp [WPc.advancing] at ha

/-- A thread that is not finished and not waiting may run. -/
def Ready (s : WState) (t : Nat) : Prop :=
  ∃ pc, s.th[t]? = some pc ∧ pc ≠ .done ∧ ∀ i, pc = .wait i → s.nextW = i

theorem winv_progress {alloc : List Bool} {s : WState} (inv : WInv alloc s) (hnf : ¬ s.finished) :
    ∃ t, Ready s t ∧ ∀ (u : Nat) (pc : WPc), s.th[u]? = some pc → pc.advancing = true → u = t := by
  by_cases hadv : ∃ (u : Nat) (pc : WPc), s.th[u]? = some pc ∧ pc.advancing = true
  · obtain ⟨t, pc, h, ha⟩ := hadv
    refine ⟨t, ⟨pc, h, ?_, ?_⟩, ?_⟩
    · intro e; subst e; simp [WPc.advancing] at ha
    · intro i e; subst e; simp [WPc.advancing] at ha
    · intro u p hu hp; exact inv.one u t p pc hu h hp ha
  · have calm : ∀ (u : Nat) (pc : WPc), s.th[u]? = some pc → pc.advancing = false := by
      intro u pc h
      rcases Bool.eq_false_or_eq_true pc.advancing with e | e
      · exact absurd ⟨u, pc, h, e⟩ hadv
      · exact e
    obtain ⟨hl, hn, ha⟩ := inv.calm calm
    simp only [WState.finished, Classical.not_forall] at hnf
    obtain ⟨pc, hmem, hne⟩ := hnf
    obtain ⟨t, ht⟩ := List.getElem?_of_mem hmem
    have ok : ∀ t, Ready s t → ∃ t, Ready s t ∧ ∀ (u : Nat) (pc : WPc), s.th[u]? = some pc → pc.advancing = true → u = t :=
      fun t h => ⟨t, h, fun u pc hu hp => by rw [calm u pc hu] at hp; simp at hp⟩
    by_cases hwait : ∃ i, pc = .wait i
    · obtain ⟨i, e⟩ := hwait
      subst e
      obtain ⟨h1, h2, h3, h4⟩ := inv.held t _ i ht rfl
      have hi : i < alloc.length := (List.getElem?_eq_some_iff.mp h1).1
      rcases inv.cov s.nextW (ha (by omega)) (by omega) with h | ⟨u, p, hu, hh⟩
      · rw [hl, mem_written] at h; omega
      · apply ok u
        cases p with
        | wait j => simp [WPc.holds] at hh; exact ⟨_, hu, by simp, by intro k e; simp at e; omega⟩
        | write j => exact ⟨_, hu, by simp, by simp⟩
        | _ => simp [WPc.holds] at hh
    · exact ok t ⟨pc, ht, hne, fun i e => absurd ⟨i, e⟩ hwait⟩

theorem winv_measure {alloc : List Bool} (oob : Bool) {s : WState} (inv : WInv alloc s) {t : Nat} (h : Ready s t) :
    wmeasure alloc.length (s.step alloc oob t) < wmeasure alloc.length s := by
  obtain ⟨pc, ht, hd, hw⟩ := h
  refine wmeasure_step oob t pc ht hd hw inv.hC ?_
  intro v e; subst e
  have := inv.st t v ht
  omega

theorem winv_can_finish {alloc : List Bool} (oob : Bool) : ∀ (m : Nat) {s : WState}, wmeasure alloc.length s ≤ m →
    WInv alloc s → ∃ sched, Exclusive alloc oob s sched ∧ (s.run alloc oob sched).finished := by
  intro m
  induction m with
  | zero =>
    intro s hm inv
    by_cases hf : s.finished
    · exact ⟨[], trivial, hf⟩
    · obtain ⟨t, hr, _⟩ := winv_progress inv hf
      have := winv_measure oob inv hr; omega
  | succ m ih =>
    intro s hm inv
    by_cases hf : s.finished
    · exact ⟨[], trivial, hf⟩
    · obtain ⟨t, hr, hx⟩ := winv_progress inv hf
      have := winv_measure oob inv hr
      obtain ⟨sched, h1, h2⟩ := ih (by omega) (winv_step oob inv t hx)
      exact ⟨t :: sched, ⟨hx, h1⟩, h2⟩

/-- With one thread every schedule is exclusive. -/
theorem exclusive_single (alloc : List Bool) (oob : Bool) : ∀ (sched : List Nat) (s : WState), s.th.length = 1 →
    (∀ t ∈ sched, t = 0) → Exclusive alloc oob s sched
  | [], _, _, _ => trivial
  | t :: ts, s, hl, h => by
    refine ⟨?_, exclusive_single alloc oob ts _ (by rw [wth_length]; exact hl) fun u hu => h u (by simp [hu])⟩
    intro u pc hu _
    have := h t (by simp)
    have := (List.getElem?_eq_some_iff.mp hu).1
    omega

/-! ## All blocks allocated -/

def WPc.moving : WPc → Bool
  | .load => true
  | .store _ => true
  | _ => false

/-- Invariant under every schedule when every block is allocated. -/
structure AInv (n : Nat) (s : WState) : Prop where
  logC : ∀ i ∈ s.log, i < s.nextC
  cov : ∀ i, i < n → i < s.nextC → i ∈ s.log ∨ ∃ (u : Nat) (pc : WPc), s.th[u]? = some pc ∧ pc.holds = some i
  held : ∀ (u : Nat) (pc : WPc) (i : Nat), s.th[u]? = some pc → pc.holds = some i →
    i < n ∧ i < s.nextC ∧ i ∉ s.log ∧ s.nextW ≤ i
  dist : ∀ (u v : Nat) (pc pc' : WPc) (i : Nat), s.th[u]? = some pc → s.th[v]? = some pc' → pc.holds = some i →
    pc'.holds = some i → u = v
  wr : ∀ (u i : Nat), s.th[u]? = some (.write i) → i = s.nextW
  mv : s.nextW < n → ∀ (u : Nat) (pc : WPc), s.th[u]? = some pc → pc.moving = true →
    s.log = List.range (s.nextW + 1) ∧ (∀ v, pc = .store v → v = s.nextW + 1) ∧
    ∀ (v : Nat) (pc' : WPc), s.th[v]? = some pc' → pc'.moving = true → v = u
  still : s.nextW < n → (∀ (u : Nat) (pc : WPc), s.th[u]? = some pc → pc.moving = false) →
    s.log = List.range s.nextW
  over : n ≤ s.nextW → s.log = List.range n ∧ ∀ (u v : Nat), s.th[u]? = some (.store v) → n ≤ v
  dn : ∀ u : Nat, s.th[u]? = some .done → n ≤ s.nextC

theorem nextFrom_all {alloc : List Bool} (h : ∀ b ∈ alloc, b = true) (k : Nat) : nextFrom alloc k = k := by
  obtain ⟨n1, n2, n3, n4, n5⟩ := nextFrom_spec alloc k
  by_cases hk : alloc.length ≤ k
  · exact n3 hk
  · by_cases e : nextFrom alloc k = k
    · exact e
    · exfalso
      apply n5 k (by omega) (by omega)
      rw [List.getElem?_eq_getElem (by omega), h _ (List.getElem_mem _)]

theorem ainv_init (threads : Nat) {alloc : List Bool} (h : ∀ b ∈ alloc, b = true) :
    AInv alloc.length (WState.init threads alloc) := by
  have hth : ∀ (u : Nat) (pc : WPc), (List.replicate threads WPc.fetch)[u]? = some pc → pc = .fetch := by
    intro u pc h
    rw [List.getElem?_replicate] at h
    split at h <;> simp_all
  unfold WState.init
  rw [nextFrom_all h]
  constructor
  · intro i hi; simp at hi
  · intro i _ hi; simp at hi
  · intro u pc i h hh; rw [hth u pc h] at hh; simp [WPc.holds] at hh
  · intro u v pc pc' i h h' hh; rw [hth u pc h] at hh; simp [WPc.holds] at hh
  · intro u i h; have := hth u _ h; simp at this
  · intro _ u pc h hh; rw [hth u pc h] at hh; simp [WPc.moving] at hh
  · intro _ _; rfl
  · intro h0
    refine ⟨?_, ?_⟩
    · have : alloc.length = 0 := by simp only at h0; omega
      rw [this]; rfl
    · intro u v h; have := hth u _ h; simp at this
  · intro u h; have := hth u _ h; simp at this

/-- Thread `t` goes on to `new` without touching the counters or the file. -/
theorem ainv_quiet {n : Nat} {s : WState} (inv : AInv n s) {t : Nat} {pc : WPc} (ht : s.th[t]? = some pc) (new : WPc)
    (hh : new.holds = pc.holds) (hd : new ≠ .done) (hw : ∀ i, new = .write i → i = s.nextW)
    (hm : s.nextW < n → new.moving = pc.moving) (hs : ∀ v, new = .store v → v = s.nextW + 1) :
    AInv n { s with th := s.th.set t new } := by
  have gs := fun b u => get_set ht b u
  have old : ∀ (u : Nat) (p : WPc), (s.th.set t new)[u]? = some p →
      ∃ p', s.th[u]? = some p' ∧ p.holds = p'.holds ∧ (s.nextW < n → p.moving = p'.moving) ∧ (p = p' ∨ p = new) := by
    intro u p h
    rw [gs] at h
    split at h
    · rename_i e; subst e
      simp at h; subst h
      exact ⟨pc, ht, hh, hm, Or.inr rfl⟩
    · exact ⟨p, h, rfl, fun _ => rfl, Or.inl rfl⟩
  have new' : ∀ (u : Nat) (p : WPc), s.th[u]? = some p →
      ∃ p', (s.th.set t new)[u]? = some p' ∧ p'.holds = p.holds ∧ (s.nextW < n → p'.moving = p.moving) := by
    intro u p h
    by_cases e : u = t
    · subst e
      rw [ht, Option.some.injEq] at h; subst h
      exact ⟨new, by rw [gs, if_pos rfl], hh, hm⟩
    · exact ⟨p, by rw [gs, if_neg e]; exact h, rfl, fun _ => rfl⟩
  constructor
  · exact inv.logC
  · intro i hi h
    rcases inv.cov i hi h with h' | ⟨u, p, hu, hp⟩
    · exact Or.inl h'
    · obtain ⟨p', a, b, _⟩ := new' u p hu
      exact Or.inr ⟨u, p', a, b.trans hp⟩
  · intro u p i h hp
    obtain ⟨p', a, b, _⟩ := old u p h
    exact inv.held u p' i a (b ▸ hp)
  · intro u v p p' i h h' hp hp'
    obtain ⟨q, a, b, _⟩ := old u p h
    obtain ⟨q', a', b', _⟩ := old v p' h'
    exact inv.dist u v q q' i a a' (b ▸ hp) (b' ▸ hp')
  · intro u i h
    obtain ⟨q, a, _, _, d⟩ := old u _ h
    rcases d with d | d
    · subst d; exact inv.wr u i a
    · exact hw i d.symm
  · intro hn u p h hp
    obtain ⟨q, a, b, c, d⟩ := old u p h
    obtain ⟨h1, h2, h3⟩ := inv.mv hn u q a (c hn ▸ hp)
    refine ⟨h1, ?_, ?_⟩
    · intro v e
      rcases d with d | d
      · subst d; exact h2 v e
      · exact hs v (d.symm.trans e)
    · intro v p' h' hp'
      obtain ⟨q', a', _, c', _⟩ := old v p' h'
      exact h3 v q' a' (c' hn ▸ hp')
  · intro hn h
    refine inv.still hn ?_
    intro u p hu
    obtain ⟨p', a, _, c⟩ := new' u p hu
    rw [← c hn]; exact h u p' a
  · intro hn
    refine ⟨(inv.over hn).1, ?_⟩
    intro u v h
    obtain ⟨q, a, _, _, d⟩ := old u _ h
    rcases d with d | d
    · subst d; exact (inv.over hn).2 u v a
    · have := hs v d.symm; simp only at hn; omega
  · intro u h
    obtain ⟨q, a, _, _, d⟩ := old u _ h
    rcases d with d | d
    · subst d; exact inv.dn u a
    · exact absurd d.symm hd

theorem ainv_step {alloc : List Bool} (hall : ∀ b ∈ alloc, b = true) (oob : Bool) {s : WState}
    (inv : AInv alloc.length s) (t : Nat) : AInv alloc.length (s.step alloc oob t) := by
  unfold WState.step
  cases ht : s.th[t]? with
  | none => exact inv
  | some pc =>
    have gs := fun b u => get_set ht b u
    cases pc with
    | done => exact inv
    | wait i =>
      simp only
      by_cases h : s.nextW = i
      · rw [if_pos h]
        exact ainv_quiet inv ht (.write i) rfl (by simp) (by intro j e; simp at e; omega) (fun _ => rfl) (by simp)
      · rw [if_neg h]; exact inv
    | load =>
      exact ainv_quiet inv ht (.store (s.nextW + 1)) rfl (by simp) (by simp) (fun _ => rfl)
        (by intro v e; simp at e; omega)
    | test =>
      simp only
      split
      · exact ainv_quiet inv ht .flag rfl (by simp) (by simp) (fun _ => rfl) (by simp)
      · exact ainv_quiet inv ht .fetch rfl (by simp) (by simp) (fun _ => rfl) (by simp)
    | flag =>
      simp only
      split
      · exact ainv_quiet inv ht .fetch rfl (by simp) (by simp) (fun _ => rfl) (by simp)
      · rename_i h
        refine ainv_quiet inv ht .load rfl (by simp) (by simp) (fun hn => ?_) (by simp)
        exfalso; apply h
        rw [List.getElem?_eq_getElem hn, Option.getD_some, hall _ (List.getElem_mem _)]
    | fetch =>
      simp only [nextFrom_all hall]
      have hnew : (s.nextC < alloc.length ∧ taken alloc s.nextC = .wait s.nextC) ∨
          (alloc.length ≤ s.nextC ∧ taken alloc s.nextC = .done) := by
        by_cases h : s.nextC < alloc.length
        · left; refine ⟨h, ?_⟩; rw [taken, List.getElem?_eq_getElem h, hall _ (List.getElem_mem _)]
        · right; refine ⟨by omega, ?_⟩; rw [taken, List.getElem?_eq_none (by omega)]
      generalize taken alloc s.nextC = new at hnew
      have old : ∀ (u : Nat) (p : WPc), (s.th.set t new)[u]? = some p → (u = t ∧ p = new) ∨ (u ≠ t ∧ s.th[u]? = some p) := by
        intro u p h
        rw [gs] at h
        split at h
        · simp at h; exact Or.inl ⟨by assumption, h.symm⟩
        · exact Or.inr ⟨by assumption, h⟩
      have hmv : new.moving = false := by rcases hnew with ⟨_, e⟩ | ⟨_, e⟩ <;> rw [e] <;> rfl
      have hnt : ∀ (u : Nat) (p : WPc), s.th[u]? = some p → p ≠ .fetch → (s.th.set t new)[u]? = some p := by
        intro u p h hp
        have : u ≠ t := by intro e; subst e; rw [ht, Option.some.injEq] at h; exact hp h.symm
        rw [gs, if_neg this]; exact h
      have hwn : s.nextC < alloc.length → s.nextW ≤ s.nextC := by
        intro h
        by_cases hw : s.nextW < alloc.length
        · by_cases e : s.nextW ≤ s.nextC
          · exact e
          · exfalso
            have : s.nextC ∈ s.log := by
              by_cases hm : ∀ (u : Nat) (pc : WPc), s.th[u]? = some pc → pc.moving = false
              · rw [inv.still hw hm, List.mem_range]; omega
              · simp only [Classical.not_forall] at hm
                obtain ⟨u, p, a, b⟩ := hm
                rw [(inv.mv hw u p a (by simpa using b)).1, List.mem_range]; omega
            have := inv.logC _ this; omega
        · exfalso
          have : s.nextC ∈ s.log := by rw [(inv.over (by omega)).1, List.mem_range]; omega
          have := inv.logC _ this; omega
      constructor
      · intro i hi; have := inv.logC i hi; simp only; omega
      · intro i hi h
        simp only at h ⊢
        by_cases hlt : i < s.nextC
        · rcases inv.cov i hi hlt with h' | ⟨u, p, hu, hh⟩
          · exact Or.inl h'
          · exact Or.inr ⟨u, p, hnt u p hu (by intro e; subst e; simp [WPc.holds] at hh), hh⟩
        · have e : i = s.nextC := by omega
          subst e
          rcases hnew with ⟨_, e⟩ | ⟨e, _⟩
          · exact Or.inr ⟨t, new, by rw [gs, if_pos rfl], by rw [e]; rfl⟩
          · omega
      · intro u p i h hh
        simp only
        rcases old u p h with ⟨_, e⟩ | ⟨_, h'⟩
        · subst e
          rcases hnew with ⟨hl, e⟩ | ⟨_, e⟩
          · rw [e] at hh; simp [WPc.holds] at hh; subst hh
            exact ⟨hl, by omega, fun hm => by have := inv.logC _ hm; omega, hwn hl⟩
          · rw [e] at hh; simp [WPc.holds] at hh
        · have := inv.held u p i h' hh
          exact ⟨this.1, by omega, this.2.2⟩
      · intro u v p p' i h h' hh hh'
        rcases old u p h with ⟨e, e'⟩ | ⟨e, a⟩ <;> rcases old v p' h' with ⟨f, f'⟩ | ⟨f, b⟩
        · omega
        · exfalso
          have := inv.held v p' i b hh'
          subst e'
          rcases hnew with ⟨hl, e⟩ | ⟨_, e⟩ <;> rw [e] at hh <;> simp [WPc.holds] at hh
          omega
        · exfalso
          have := inv.held u p i a hh
          subst f'
          rcases hnew with ⟨hl, e⟩ | ⟨_, e⟩ <;> rw [e] at hh' <;> simp [WPc.holds] at hh'
          omega
        · exact inv.dist u v p p' i a b hh hh'
      · intro u i h
        rcases old u _ h with ⟨_, e⟩ | ⟨_, a⟩
        · exfalso; rcases hnew with ⟨_, e'⟩ | ⟨_, e'⟩ <;> rw [e'] at e <;> simp at e
        · exact inv.wr u i a
      · intro hn u p h hp
        rcases old u p h with ⟨_, e⟩ | ⟨_, a⟩
        · rw [e, hmv] at hp; simp at hp
        · obtain ⟨h1, h2, h3⟩ := inv.mv hn u p a hp
          refine ⟨h1, h2, ?_⟩
          intro v p' h' hp'
          rcases old v p' h' with ⟨_, e⟩ | ⟨_, b⟩
          · rw [e, hmv] at hp'; simp at hp'
          · exact h3 v p' b hp'
      · intro hn h
        refine inv.still hn ?_
        intro u p hu
        by_cases e : p = .fetch
        · subst e; rfl
        · exact h u p (hnt u p hu e)
      · intro hn
        refine ⟨(inv.over hn).1, ?_⟩
        intro u v h
        rcases old u _ h with ⟨_, e⟩ | ⟨_, a⟩
        · exfalso; rcases hnew with ⟨_, e'⟩ | ⟨_, e'⟩ <;> rw [e'] at e <;> simp at e
        · exact (inv.over hn).2 u v a
      · intro u h
        simp only
        rcases old u _ h with ⟨_, e⟩ | ⟨_, a⟩
        · rcases hnew with ⟨_, e'⟩ | ⟨_, e'⟩
          · rw [e'] at e; simp at e
          · omega
        · have := inv.dn u a; omega
    | write i =>
      simp only
      have hiw := inv.wr t i ht
      obtain ⟨hin, hiC, hil, _⟩ := inv.held t _ i ht rfl
      subst hiw
      have hst : ∀ (u : Nat) (pc : WPc), s.th[u]? = some pc → pc.moving = false := by
        intro u p h
        rcases Bool.eq_false_or_eq_true p.moving with e | e
        · exfalso; apply hil
          rw [(inv.mv hin u p h e).1, List.mem_range]; omega
        · exact e
      have hlog := inv.still hin hst
      have old : ∀ (u : Nat) (p : WPc), (s.th.set t .load)[u]? = some p → (u = t ∧ p = .load) ∨ (u ≠ t ∧ s.th[u]? = some p) := by
        intro u p h
        rw [gs] at h
        split at h
        · simp at h; exact Or.inl ⟨by assumption, h.symm⟩
        · exact Or.inr ⟨by assumption, h⟩
      constructor
      · intro i hi
        simp only [List.mem_append, List.mem_singleton] at hi
        rcases hi with hi | hi
        · exact inv.logC i hi
        · subst hi; exact hiC
      · intro i hi h
        simp only [List.mem_append, List.mem_singleton]
        rcases inv.cov i hi h with h' | ⟨u, p, hu, hp⟩
        · exact Or.inl (Or.inl h')
        · by_cases e : u = t
          · subst e; rw [ht, Option.some.injEq] at hu; subst hu
            simp [WPc.holds] at hp; exact Or.inl (Or.inr hp.symm)
          · exact Or.inr ⟨u, p, by rw [gs, if_neg e]; exact hu, hp⟩
      · intro u p i h hp
        rcases old u p h with ⟨_, e⟩ | ⟨hu, a⟩
        · subst e; simp [WPc.holds] at hp
        · obtain ⟨h1, h2, h3, h4⟩ := inv.held u p i a hp
          refine ⟨h1, h2, ?_, h4⟩
          simp only [List.mem_append, List.mem_singleton, not_or]
          refine ⟨h3, ?_⟩
          intro e
          exact hu (inv.dist u t p _ i a ht hp (by simp [WPc.holds, e]))
      · intro u v p p' i h h' hp hp'
        rcases old u p h with ⟨_, e⟩ | ⟨hu, a⟩
        · subst e; simp [WPc.holds] at hp
        · rcases old v p' h' with ⟨_, e⟩ | ⟨hv, b⟩
          · subst e; simp [WPc.holds] at hp'
          · exact inv.dist u v p p' i a b hp hp'
      · intro u i h
        rcases old u _ h with ⟨_, e⟩ | ⟨hu, a⟩
        · simp at e
        · exact inv.wr u i a
      · intro hn u p h hp
        rcases old u p h with ⟨e, e'⟩ | ⟨hu, a⟩
        · refine ⟨by simp only [hlog, List.range_succ], by rw [e']; simp, ?_⟩
          intro v p' h' hp'
          rcases old v p' h' with ⟨f, _⟩ | ⟨_, b⟩
          · omega
          · rw [hst v p' b] at hp'; simp at hp'
        · rw [hst u p a] at hp; simp at hp
      · intro hn h
        have := h t .load (by rw [gs, if_pos rfl])
        simp [WPc.moving] at this
      · intro hn; simp only at hn; omega
      · intro u h
        rcases old u _ h with ⟨_, e⟩ | ⟨hu, a⟩
        · simp at e
        · exact inv.dn u a
    | store v =>
      simp only
      have old : ∀ (u : Nat) (p : WPc), (s.th.set t .test)[u]? = some p → (u = t ∧ p = .test) ∨ (u ≠ t ∧ s.th[u]? = some p) := by
        intro u p h
        rw [gs] at h
        split at h
        · simp at h; exact Or.inl ⟨by assumption, h.symm⟩
        · exact Or.inr ⟨by assumption, h⟩
      -- the counter passes only blocks that were written
      have hpass : ∀ (u : Nat) (p : WPc) (i : Nat), s.th[u]? = some p → p.holds = some i → v ≤ i ∧ ∀ j, p ≠ .write j := by
        intro u p i h hp
        obtain ⟨h1, h2, h3, h4⟩ := inv.held u p i h hp
        have hn : s.nextW < alloc.length := by omega
        obtain ⟨a, b, _⟩ := inv.mv hn t _ ht rfl
        have hv := b v rfl
        have hi : i ≠ s.nextW := by
          intro e; apply h3; rw [a, List.mem_range]; omega
        refine ⟨by omega, ?_⟩
        intro j e
        subst e
        have := inv.wr u j h
        simp [WPc.holds] at hp
        omega
      constructor
      · exact inv.logC
      · intro i hi h
        rcases inv.cov i hi h with h' | ⟨u, p, hu, hp⟩
        · exact Or.inl h'
        · have hne : u ≠ t := by
            intro e; subst e; rw [ht, Option.some.injEq] at hu; subst hu; simp [WPc.holds] at hp
          exact Or.inr ⟨u, p, by rw [gs, if_neg hne]; exact hu, hp⟩
      · intro u p i h hp
        rcases old u p h with ⟨_, e⟩ | ⟨_, a⟩
        · subst e; simp [WPc.holds] at hp
        · obtain ⟨h1, h2, h3, _⟩ := inv.held u p i a hp
          exact ⟨h1, h2, h3, (hpass u p i a hp).1⟩
      · intro u w p p' i h h' hp hp'
        rcases old u p h with ⟨_, e⟩ | ⟨_, a⟩
        · subst e; simp [WPc.holds] at hp
        · rcases old w p' h' with ⟨_, e⟩ | ⟨_, b⟩
          · subst e; simp [WPc.holds] at hp'
          · exact inv.dist u w p p' i a b hp hp'
      · intro u i h
        rcases old u _ h with ⟨_, e⟩ | ⟨_, a⟩
        · simp at e
        · exact absurd rfl ((hpass u _ i a rfl).2 i)
      · intro hn u p h hp
        exfalso
        simp only at hn
        have hw : s.nextW < alloc.length := by
          by_cases e : s.nextW < alloc.length
          · exact e
          · have := (inv.over (by omega)).2 t v ht; omega
        rcases old u p h with ⟨_, e⟩ | ⟨hu, a⟩
        · subst e; simp [WPc.moving] at hp
        · exact hu ((inv.mv hw t _ ht rfl).2.2 u p a hp)
      · intro hn _
        simp only at hn ⊢
        have hw : s.nextW < alloc.length := by
          by_cases e : s.nextW < alloc.length
          · exact e
          · have := (inv.over (by omega)).2 t v ht; omega
        obtain ⟨a, b, _⟩ := inv.mv hw t _ ht rfl
        rw [a, b v rfl]
      · intro hn
        simp only at hn ⊢
        by_cases hw : s.nextW < alloc.length
        · obtain ⟨a, b, c⟩ := inv.mv hw t _ ht rfl
          have hv := b v rfl
          refine ⟨by rw [a]; congr 1; omega, ?_⟩
          intro u w h
          rcases old u _ h with ⟨_, e⟩ | ⟨hu, d⟩
          · simp at e
          · exact absurd (c u _ d rfl) hu
        · obtain ⟨a, b⟩ := inv.over (by omega)
          refine ⟨a, ?_⟩
          intro u w h
          rcases old u _ h with ⟨_, e⟩ | ⟨hu, d⟩
          · simp at e
          · exact b u w d
      · intro u h
        rcases old u _ h with ⟨_, e⟩ | ⟨_, a⟩
        · simp at e
        · exact inv.dn u a

theorem ainv_run {alloc : List Bool} (hall : ∀ b ∈ alloc, b = true) (oob : Bool) : ∀ (sched : List Nat) {s : WState},
    AInv alloc.length s → AInv alloc.length (s.run alloc oob sched)
  | [], _, inv => inv
  | t :: ts, _, inv => ainv_run hall oob ts (ainv_step hall oob inv t)

theorem ainv_prefix {n : Nat} {s : WState} (inv : AInv n s) : ∃ w, w ≤ n ∧ s.log = List.range w := by
  by_cases hw : s.nextW < n
  · by_cases hm : ∀ (u : Nat) (pc : WPc), s.th[u]? = some pc → pc.moving = false
    · exact ⟨_, by omega, inv.still hw hm⟩
    · simp only [Classical.not_forall] at hm
      obtain ⟨u, p, a, b⟩ := hm
      exact ⟨_, by omega, (inv.mv hw u p a (by simpa using b)).1⟩
  · exact ⟨n, by omega, (inv.over (by omega)).1⟩

theorem ainv_finished {n : Nat} {s : WState} (inv : AInv n s) (hT : 0 < s.th.length) (hf : s.finished) :
    s.log = List.range n := by
  have hall : ∀ (u : Nat) (pc : WPc), s.th[u]? = some pc → pc = .done := by
    intro u pc h; exact hf pc (List.mem_of_getElem? h)
  have h0 : s.th[0]? = some .done := by
    rw [List.getElem?_eq_getElem hT]
    exact congrArg some (hf _ (List.getElem_mem hT))
  have hdn := inv.dn 0 h0
  by_cases hw : s.nextW < n
  · exfalso
    have hl := inv.still hw (by intro u pc h; rw [hall u pc h]; rfl)
    rcases inv.cov s.nextW hw (by omega) with h | ⟨u, pc, h, hh⟩
    · rw [hl, List.mem_range] at h; omega
    · rw [hall u pc h] at hh; simp [WPc.holds] at hh
  · exact (inv.over (by omega)).1

theorem ainv_progress {n : Nat} {s : WState} (inv : AInv n s) (hnf : ¬ s.finished) : ∃ t, Ready s t := by
  simp only [WState.finished, Classical.not_forall] at hnf
  obtain ⟨pc, hmem, hne⟩ := hnf
  obtain ⟨t, ht⟩ := List.getElem?_of_mem hmem
  by_cases hwait : ∃ i, pc = .wait i
  · obtain ⟨i, e⟩ := hwait
    subst e
    obtain ⟨h1, h2, h3, h4⟩ := inv.held t _ i ht rfl
    by_cases hm : ∀ (u : Nat) (pc : WPc), s.th[u]? = some pc → pc.moving = false
    · have hl := inv.still (by omega) hm
      rcases inv.cov s.nextW (by omega) (by omega) with h | ⟨u, p, hu, hh⟩
      · rw [hl, List.mem_range] at h; omega
      · refine ⟨u, ?_⟩
        cases p with
        | wait j => simp [WPc.holds] at hh; exact ⟨_, hu, by simp, by intro k e; simp at e; omega⟩
        | write j => exact ⟨_, hu, by simp, by simp⟩
        | _ => simp [WPc.holds] at hh
    · simp only [Classical.not_forall] at hm
      obtain ⟨u, p, a, b⟩ := hm
      refine ⟨u, p, a, ?_, ?_⟩
      · intro e; subst e; simp [WPc.moving] at b
      · intro i e; subst e; simp [WPc.moving] at b
  · exact ⟨t, pc, ht, hne, fun i e => absurd ⟨i, e⟩ hwait⟩

theorem ainv_measure {alloc : List Bool} (hall : ∀ b ∈ alloc, b = true) (oob : Bool) {s : WState}
    (inv : AInv alloc.length s) {t : Nat} (h : Ready s t) :
    wmeasure alloc.length (s.step alloc oob t) < wmeasure alloc.length s := by
  obtain ⟨pc, ht, hd, hw⟩ := h
  refine wmeasure_step oob t pc ht hd hw ?_ ?_
  · intro h; rw [List.getElem?_eq_getElem h, hall _ (List.getElem_mem _)]
  · intro v e; subst e
    refine ⟨?_, ?_⟩
    · intro h; have := (inv.mv h t _ ht rfl).2.1 v rfl; omega
    · intro h; exact (inv.over h).2 t v ht

theorem ainv_can_finish {alloc : List Bool} (hall : ∀ b ∈ alloc, b = true) (oob : Bool) : ∀ (m : Nat) {s : WState},
    wmeasure alloc.length s ≤ m → AInv alloc.length s → ∃ sched, (s.run alloc oob sched).finished := by
  intro m
  induction m with
  | zero =>
    intro s hm inv
    by_cases hf : s.finished
    · exact ⟨[], hf⟩
    · obtain ⟨t, hr⟩ := ainv_progress inv hf
      have := ainv_measure hall oob inv hr; omega
  | succ m ih =>
    intro s hm inv
    by_cases hf : s.finished
    · exact ⟨[], hf⟩
    · obtain ⟨t, hr⟩ := ainv_progress inv hf
      have := ainv_measure hall oob inv hr
      obtain ⟨sched, h2⟩ := ih (by omega) (ainv_step hall oob inv t)
      exact ⟨t :: sched, h2⟩

end F3D.BlockThreads

import Verif.Proofs.WriteThreads

namespace F3D.BlockThreads

/-- Invariant under every schedule: the blocks taken so far are the written ones and those in the hands of a
thread. -/
structure UInv (alloc : List Bool) (s : WState) : Prop where
  hC : s.nextC < alloc.length → alloc[s.nextC]? = some true
  cov : ∀ i, alloc[i]? = some true → i < s.nextC →
    i ∈ s.log ∨ ∃ (u : Nat) (pc : WPc), s.th[u]? = some pc ∧ pc.holds = some i
  held : ∀ (u : Nat) (pc : WPc) (i : Nat), s.th[u]? = some pc → pc.holds = some i →
    alloc[i]? = some true ∧ i < s.nextC ∧ i ∉ s.log
  dist : ∀ (u v : Nat) (pc pc' : WPc) (i : Nat), s.th[u]? = some pc → s.th[v]? = some pc' → pc.holds = some i →
    pc'.holds = some i → u = v
  logs : s.log.Nodup ∧ ∀ i ∈ s.log, i < s.nextC ∧ alloc[i]? = some true
  dn : ∀ u : Nat, s.th[u]? = some .done → alloc.length ≤ s.nextC

theorem uinv_init (threads : Nat) (alloc : List Bool) : UInv alloc (WState.init threads alloc) := by
  have w := winv_init threads alloc
  refine ⟨w.hC, w.cov, ?_, w.dist, by simp [WState.init], w.dn⟩
  intro u pc i h hh
  have := w.held u pc i h hh
  exact ⟨this.1, this.2.1, this.2.2.2⟩

/-- A step that keeps what the thread holds. -/
theorem uinv_quiet {alloc : List Bool} {s : WState} (inv : UInv alloc s) {t : Nat} {pc : WPc} (ht : s.th[t]? = some pc)
    (new : WPc) (hh : new.holds = pc.holds) (hd : new ≠ .done) (w : Nat) :
    UInv alloc { s with nextW := w, th := s.th.set t new } := by
  have gs := fun b u => get_set ht b u
  have old : ∀ (u : Nat) (p : WPc), (s.th.set t new)[u]? = some p →
      ∃ p', s.th[u]? = some p' ∧ p.holds = p'.holds ∧ (p = p' ∨ p = new) := by
    intro u p h
    rw [gs] at h
    split at h
    · rename_i e; subst e
      simp at h; subst h
      exact ⟨pc, ht, hh, Or.inr rfl⟩
    · exact ⟨p, h, rfl, Or.inl rfl⟩
  constructor
  · exact inv.hC
  · intro i hi h
    rcases inv.cov i hi h with h' | ⟨u, p, hu, hp⟩
    · exact Or.inl h'
    · by_cases e : u = t
      · subst e
        rw [ht, Option.some.injEq] at hu; subst hu
        exact Or.inr ⟨u, new, by rw [gs, if_pos rfl], hh.trans hp⟩
      · exact Or.inr ⟨u, p, by rw [gs, if_neg e]; exact hu, hp⟩
  · intro u p i h hp
    obtain ⟨p', a, b, _⟩ := old u p h
    exact inv.held u p' i a (b ▸ hp)
  · intro u v p p' i h h' hp hp'
    obtain ⟨q, a, b, _⟩ := old u p h
    obtain ⟨q', a', b', _⟩ := old v p' h'
    exact inv.dist u v q q' i a a' (b ▸ hp) (b' ▸ hp')
  · exact inv.logs
  · intro u h
    obtain ⟨q, a, _, d⟩ := old u _ h
    rcases d with d | d
    · subst d; exact inv.dn u a
    · exact absurd d.symm hd

theorem uinv_step {alloc : List Bool} (oob : Bool) {s : WState} (inv : UInv alloc s) (t : Nat) :
    UInv alloc (s.step alloc oob t) := by
  unfold WState.step
  cases ht : s.th[t]? with
  | none => exact inv
  | some pc =>
    have gs := fun b u => get_set ht b u
    cases pc with
    | done => exact inv
    | wait i =>
      simp only
      split
      · exact uinv_quiet inv ht (.write i) rfl (by simp) _
      · exact inv
    | load => exact uinv_quiet inv ht (.store (s.nextW + 1)) rfl (by simp) _
    | store v => exact uinv_quiet inv ht .test rfl (by simp) v
    | test =>
      simp only
      split
      · exact uinv_quiet inv ht .flag rfl (by simp) _
      · exact uinv_quiet inv ht .fetch rfl (by simp) _
    | flag =>
      simp only
      split
      · exact uinv_quiet inv ht .fetch rfl (by simp) _
      · exact uinv_quiet inv ht .load rfl (by simp) _
    | fetch =>
      simp only
      obtain ⟨n1, n2, n3, n4, n5⟩ := nextFrom_spec alloc (s.nextC + 1)
      have hnew : (s.nextC < alloc.length ∧ taken alloc s.nextC = .wait s.nextC) ∨
          (alloc.length ≤ s.nextC ∧ taken alloc s.nextC = .done) := by
        by_cases h : s.nextC < alloc.length
        · left; refine ⟨h, ?_⟩; rw [taken, inv.hC h]
        · right; refine ⟨by omega, ?_⟩; rw [taken, List.getElem?_eq_none (by omega)]
      generalize taken alloc s.nextC = new at hnew
      have old : ∀ (u : Nat) (p : WPc), (s.th.set t new)[u]? = some p → (u = t ∧ p = new) ∨ (u ≠ t ∧ s.th[u]? = some p) := by
        intro u p h
        rw [gs] at h
        split at h
        · simp at h; exact Or.inl ⟨by assumption, h.symm⟩
        · exact Or.inr ⟨by assumption, h⟩
      constructor
      · exact n4
      · intro i hi h
        simp only at h ⊢
        by_cases hlt : i < s.nextC
        · rcases inv.cov i hi hlt with h' | ⟨u, p, hu, hh⟩
          · exact Or.inl h'
          · have hne : u ≠ t := by
              intro e; subst e; rw [ht, Option.some.injEq] at hu; subst hu; simp [WPc.holds] at hh
            exact Or.inr ⟨u, p, by rw [gs, if_neg hne]; exact hu, hh⟩
        · have e : i = s.nextC := by
            by_cases e : i = s.nextC
            · exact e
            · exact absurd hi (n5 i (by omega) h)
          subst e
          have hl : s.nextC < alloc.length := (List.getElem?_eq_some_iff.mp hi).1
          rcases hnew with ⟨_, e⟩ | ⟨e, _⟩
          · exact Or.inr ⟨t, new, by rw [gs, if_pos rfl], by rw [e]; rfl⟩
          · omega
      · intro u p i h hh
        simp only
        rcases old u p h with ⟨_, e⟩ | ⟨_, h'⟩
        · subst e
          rcases hnew with ⟨hl, e⟩ | ⟨_, e⟩
          · rw [e] at hh; simp [WPc.holds] at hh; subst hh
            exact ⟨inv.hC hl, by omega, fun hm => by have := (inv.logs.2 _ hm).1; omega⟩
          · rw [e] at hh; simp [WPc.holds] at hh
        · have := inv.held u p i h' hh
          exact ⟨this.1, by omega, this.2.2⟩
      · intro u v p p' i h h' hh hh'
        rcases old u p h with ⟨e, e'⟩ | ⟨e, a⟩ <;> rcases old v p' h' with ⟨f, f'⟩ | ⟨f, b⟩
        · omega
        · exfalso
          have := inv.held v p' i b hh'
          subst e'
          rcases hnew with ⟨hl, e⟩ | ⟨_, e⟩ <;> rw [e] at hh <;> simp [WPc.holds] at hh
          omega
        · exfalso
          have := inv.held u p i a hh
          subst f'
          rcases hnew with ⟨hl, e⟩ | ⟨_, e⟩ <;> rw [e] at hh' <;> simp [WPc.holds] at hh'
          omega
        · exact inv.dist u v p p' i a b hh hh'
      · refine ⟨inv.logs.1, ?_⟩
        intro i hi
        have := inv.logs.2 i hi
        exact ⟨by simp only; omega, this.2⟩
      · intro u h
        simp only
        rcases old u _ h with ⟨_, e⟩ | ⟨_, a⟩
        · rcases hnew with ⟨_, e'⟩ | ⟨_, e'⟩
          · rw [e'] at e; simp at e
          · omega
        · have := inv.dn u a; omega
    | write i =>
      simp only
      obtain ⟨hia, hiC, hil⟩ := inv.held t _ i ht rfl
      have old : ∀ (u : Nat) (p : WPc), (s.th.set t .load)[u]? = some p → (u = t ∧ p = .load) ∨ (u ≠ t ∧ s.th[u]? = some p) := by
        intro u p h
        rw [gs] at h
        split at h
        · simp at h; exact Or.inl ⟨by assumption, h.symm⟩
        · exact Or.inr ⟨by assumption, h⟩
      constructor
      · exact inv.hC
      · intro j hj h
        simp only [List.mem_append, List.mem_singleton]
        rcases inv.cov j hj h with h' | ⟨u, p, hu, hp⟩
        · exact Or.inl (Or.inl h')
        · by_cases e : u = t
          · subst e; rw [ht, Option.some.injEq] at hu; subst hu
            simp [WPc.holds] at hp; exact Or.inl (Or.inr hp.symm)
          · exact Or.inr ⟨u, p, by rw [gs, if_neg e]; exact hu, hp⟩
      · intro u p j h hp
        rcases old u p h with ⟨_, e⟩ | ⟨hu, a⟩
        · subst e; simp [WPc.holds] at hp
        · obtain ⟨h1, h2, h3⟩ := inv.held u p j a hp
          refine ⟨h1, h2, ?_⟩
          simp only [List.mem_append, List.mem_singleton, not_or]
          refine ⟨h3, ?_⟩
          intro e
          exact hu (inv.dist u t p _ j a ht hp (by simp [WPc.holds, e]))
      · intro u v p p' j h h' hp hp'
        rcases old u p h with ⟨_, e⟩ | ⟨hu, a⟩
        · subst e; simp [WPc.holds] at hp
        · rcases old v p' h' with ⟨_, e⟩ | ⟨hv, b⟩
          · subst e; simp [WPc.holds] at hp'
          · exact inv.dist u v p p' j a b hp hp'
      · refine ⟨?_, ?_⟩
        · rw [List.nodup_append]
          refine ⟨inv.logs.1, by simp, ?_⟩
          intro a ha b hb e
          simp at hb
          subst hb; subst e
          exact hil ha
        · intro j hj
          simp only [List.mem_append, List.mem_singleton] at hj
          rcases hj with hj | hj
          · exact inv.logs.2 j hj
          · subst hj; exact ⟨hiC, hia⟩
      · intro u h
        rcases old u _ h with ⟨_, e⟩ | ⟨hu, a⟩
        · simp at e
        · exact inv.dn u a

theorem uinv_run {alloc : List Bool} (oob : Bool) : ∀ (sched : List Nat) {s : WState},
    UInv alloc s → UInv alloc (s.run alloc oob sched)
  | [], _, inv => inv
  | t :: ts, _, inv => uinv_run oob ts (uinv_step oob inv t)

end F3D.BlockThreads

import Verif.Proofs.BlockThreads

namespace F3D.BlockThreads

/-- The allocated blocks below `w`, in order. -/
def written (alloc : List Bool) (w : Nat) : List Nat := (List.range w).filter fun i => (alloc[i]?).getD false

theorem written_succ (alloc : List Bool) (w : Nat) :
    written alloc (w + 1) = written alloc w ++ (if alloc[w]? = some true then [w] else []) := by
  rw [written, List.range_succ, List.filter_append]
  congr 1
  cases h : alloc[w]? with
  | none => simp [h]
  | some b => cases b <;> simp [h]

theorem mem_written (alloc : List Bool) (w i : Nat) : i ∈ written alloc w ↔ i < w ∧ alloc[i]? = some true := by
  simp only [written, List.mem_filter, List.mem_range]
  cases alloc[i]? <;> simp

theorem takeWhile_spec (k : Nat) : ∀ (l : List Bool), (l.takeWhile (! ·)).length ≤ l.length ∧
    (∀ j, j < (l.takeWhile (! ·)).length → l[j]? = some false) ∧
    ((l.takeWhile (! ·)).length < l.length → l[(l.takeWhile (! ·)).length]? = some true)
  | [] => by simp
  | false :: l => by
    obtain ⟨a, b, c⟩ := takeWhile_spec k l
    refine ⟨by simp; omega, ?_, ?_⟩
    · intro j hj
      cases j with
      | zero => simp
      | succ j => simp at hj ⊢; exact b j (by simpa using hj)
    · intro h
      simp at h ⊢
      exact c (by simpa using h)
  | true :: l => by simp

/-- `nextFrom` stops at an allocated block or at the end and skips only unallocated blocks. -/
theorem nextFrom_spec (alloc : List Bool) (k : Nat) :
    k ≤ nextFrom alloc k ∧ (k ≤ alloc.length → nextFrom alloc k ≤ alloc.length) ∧
    (alloc.length ≤ k → nextFrom alloc k = k) ∧
    (nextFrom alloc k < alloc.length → alloc[nextFrom alloc k]? = some true) ∧
    ∀ i, k ≤ i → i < nextFrom alloc k → alloc[i]? ≠ some true := by
  obtain ⟨a, b, c⟩ := takeWhile_spec 0 (alloc.drop k)
  unfold nextFrom
  simp only [List.length_drop, List.getElem?_drop] at a b c
  refine ⟨by omega, by intro; omega, by intro; omega, ?_, ?_⟩
  · intro h; exact c (by omega)
  · intro i h1 h2
    have := b (i - k) (by omega)
    rw [show k + (i - k) = i by omega] at this
    rw [this]; simp

def WPc.holds : WPc → Option Nat
  | .wait i => some i
  | .write i => some i
  | _ => none

/-- Invariant when no thread runs while another is advancing the counter. -/
structure WInv (alloc : List Bool) (s : WState) : Prop where
  hC : s.nextC < alloc.length → alloc[s.nextC]? = some true
  logC : ∀ i ∈ s.log, i < s.nextC
  cov : ∀ i, alloc[i]? = some true → i < s.nextC →
    i ∈ s.log ∨ ∃ (u : Nat) (pc : WPc), s.th[u]? = some pc ∧ pc.holds = some i
  held : ∀ (u : Nat) (pc : WPc) (i : Nat), s.th[u]? = some pc → pc.holds = some i →
    alloc[i]? = some true ∧ i < s.nextC ∧ s.nextW ≤ i ∧ i ∉ s.log
  dist : ∀ (u v : Nat) (pc pc' : WPc) (i : Nat), s.th[u]? = some pc → s.th[v]? = some pc' → pc.holds = some i →
    pc'.holds = some i → u = v
  wr : ∀ (u i : Nat), s.th[u]? = some (.write i) → i = s.nextW ∧
    ∀ (v : Nat) (pc : WPc), s.th[v]? = some pc → pc.advancing = false
  one : ∀ (u v : Nat) (pc pc' : WPc), s.th[u]? = some pc → s.th[v]? = some pc' → pc.advancing = true →
    pc'.advancing = true → u = v
  calm : (∀ (u : Nat) (pc : WPc), s.th[u]? = some pc → pc.advancing = false) →
    s.log = written alloc s.nextW ∧ s.nextW ≤ alloc.length ∧ (s.nextW < alloc.length → alloc[s.nextW]? = some true)
  ld : ∀ u : Nat, s.th[u]? = some .load → s.log = written alloc (s.nextW + 1) ∧ s.nextW < alloc.length
  st : ∀ (u v : Nat), s.th[u]? = some (.store v) →
    v = s.nextW + 1 ∧ s.log = written alloc v ∧ s.nextW < alloc.length
  ts : ∀ u : Nat, s.th[u]? = some .test → s.log = written alloc s.nextW ∧ s.nextW ≤ alloc.length
  fl : ∀ u : Nat, s.th[u]? = some .flag → s.log = written alloc s.nextW ∧ s.nextW < alloc.length
  dn : ∀ u : Nat, s.th[u]? = some .done → alloc.length ≤ s.nextC

theorem winv_init (threads : Nat) (alloc : List Bool) : WInv alloc (WState.init threads alloc) := by
  have hth : ∀ (u : Nat) (pc : WPc), (List.replicate threads WPc.fetch)[u]? = some pc → pc = .fetch := by
    intro u pc h
    rw [List.getElem?_replicate] at h
    split at h <;> simp_all
  obtain ⟨n1, n2, n3, n4, n5⟩ := nextFrom_spec alloc 0
  unfold WState.init
  constructor
  · exact n4
  · intro i hi; simp at hi
  · intro i hi h; exact absurd hi (n5 i (by omega) h)
  · intro u pc i h hh; rw [hth u pc h] at hh; simp [WPc.holds] at hh
  · intro u v pc pc' i h h' hh; rw [hth u pc h] at hh; simp [WPc.holds] at hh
  · intro u i h; have := hth u _ h; simp at this
  · intro u v pc pc' h h' hh; rw [hth u pc h] at hh; simp [WPc.advancing] at hh
  · intro _
    refine ⟨?_, n2 (by omega), n4⟩
    symm
    rw [written, List.filter_eq_nil_iff]
    intro i hi
    simp only [List.mem_range] at hi
    have := n5 i (by omega) hi
    cases h : alloc[i]? with
    | none => simp
    | some b => cases b <;> simp_all
  · intro u h; have := hth u _ h; simp at this
  · intro u v h; have := hth u _ h; simp at this
  · intro u h; have := hth u _ h; simp at this
  · intro u h; have := hth u _ h; simp at this
  · intro u h; have := hth u _ h; simp at this

theorem wth_length (alloc : List Bool) (oob : Bool) (s : WState) (t : Nat) :
    (s.step alloc oob t).th.length = s.th.length := by
  unfold WState.step
  split <;> try simp
  split <;> simp

/-- Common part: thread `t` gets a new position that neither holds nor advances. -/
theorem not_adv_of_eq {s : WState} {t : Nat} {pc : WPc} (ht : s.th[t]? = some pc) (hpc : pc.advancing = false)
    (hx : ∀ (u : Nat) (pc : WPc), s.th[u]? = some pc → pc.advancing = true → u = t) :
    ∀ (u : Nat) (pc : WPc), s.th[u]? = some pc → pc.advancing = false := by
  intro u pc' h
  rcases Bool.eq_false_or_eq_true pc'.advancing with e | e
  · have := hx u pc' h e
    subst this
    rw [ht, Option.some.injEq] at h
    subst h; exact hpc
  · exact e

/-- Thread `t`, which is advancing the counter, makes a step to `new` and leaves the counter at `nw`. -/
theorem adv_case {alloc : List Bool} {s : WState} (inv : WInv alloc s) {t : Nat} {pc : WPc}
    (ht : s.th[t]? = some pc) (hpc : pc.advancing = true)
    (hx : ∀ (u : Nat) (pc : WPc), s.th[u]? = some pc → pc.advancing = true → u = t) (new : WPc) (nw : Nat)
    (hnh : new.holds = none) (hnd : new ≠ .done)
    (hle : ∀ (u : Nat) (pc : WPc) (i : Nat), s.th[u]? = some pc → pc.holds = some i → nw ≤ i)
    (hcalm : new.advancing = false → s.log = written alloc nw ∧ nw ≤ alloc.length ∧
      (nw < alloc.length → alloc[nw]? = some true))
    (hld : new = .load → s.log = written alloc (nw + 1) ∧ nw < alloc.length)
    (hst : ∀ v, new = .store v → v = nw + 1 ∧ s.log = written alloc v ∧ nw < alloc.length)
    (hts : new = .test → s.log = written alloc nw ∧ nw ≤ alloc.length)
    (hfl : new = .flag → s.log = written alloc nw ∧ nw < alloc.length) :
    WInv alloc { s with nextW := nw, th := s.th.set t new } := by
  have gs := fun b u => get_set ht b u
  have old : ∀ (u : Nat) (pc : WPc), u ≠ t → (s.th.set t new)[u]? = some pc → s.th[u]? = some pc := by
    intro u pc hne h; rw [gs, if_neg hne] at h; exact h
  have hph : pc.holds = none := by cases pc <;> simp [WPc.advancing] at hpc <;> rfl
  have hol : ∀ (u : Nat) (pc : WPc) (j : Nat), (s.th.set t new)[u]? = some pc → pc.holds = some j →
      u ≠ t ∧ s.th[u]? = some pc := by
    intro u pc j h hj
    by_cases hu : u = t
    · subst hu; rw [gs, if_pos rfl, Option.some.injEq] at h; subst h; rw [hnh] at hj; simp at hj
    · exact ⟨hu, old u pc hu h⟩
  have hat : ∀ (u : Nat) (pc : WPc), (s.th.set t new)[u]? = some pc → pc.advancing = true → u = t ∧ pc = new := by
    intro u pc h ha
    by_cases hu : u = t
    · subst hu; rw [gs, if_pos rfl, Option.some.injEq] at h; exact ⟨rfl, h.symm⟩
    · exact absurd (hx u pc (old u pc hu h) ha) hu
  constructor
  · exact inv.hC
  · exact inv.logC
  · intro i hi h
    rcases inv.cov i hi h with h' | ⟨u, p, hu, hh⟩
    · exact Or.inl h'
    · have hne : u ≠ t := by
        intro e; subst e; rw [ht, Option.some.injEq] at hu; subst hu; rw [hph] at hh; simp at hh
      exact Or.inr ⟨u, p, by rw [gs, if_neg hne]; exact hu, hh⟩
  · intro u p i h hh
    have h' := (hol u p i h hh).2
    have := inv.held u p i h' hh
    exact ⟨this.1, this.2.1, hle u p i h' hh, this.2.2.2⟩
  · intro u v p p' i h h' hh hh'
    exact inv.dist u v p p' i (hol u p i h hh).2 (hol v p' i h' hh').2 hh hh'
  · intro u i h
    exfalso
    have := (inv.wr u i (hol u _ i h rfl).2).2 t pc ht
    rw [this] at hpc; simp at hpc
  · intro u v p p' h h' ha ha'
    rw [(hat u p h ha).1, (hat v p' h' ha').1]
  · intro hc
    exact hcalm (hc t new (by rw [gs, if_pos rfl]))
  · intro u h; exact hld (hat u _ h rfl).2.symm
  · intro u v h; exact hst v (hat u _ h rfl).2.symm
  · intro u h; exact hts (hat u _ h rfl).2.symm
  · intro u h; exact hfl (hat u _ h rfl).2.symm
  · intro u h
    by_cases hu : u = t
    · subst hu; rw [gs, if_pos rfl, Option.some.injEq] at h; exact absurd h hnd
    · exact inv.dn u (old u _ hu h)

theorem winv_step {alloc : List Bool} (oob : Bool) {s : WState} (inv : WInv alloc s) (t : Nat)
    (hx : ∀ (u : Nat) (pc : WPc), s.th[u]? = some pc → pc.advancing = true → u = t) :
    WInv alloc (s.step alloc oob t) := by
  unfold WState.step
  cases ht : s.th[t]? with
  | none => exact inv
  | some pc =>
    have gs := fun b u => get_set ht b u
    cases pc with
    | done => exact inv
    | fetch =>
      obtain ⟨n1, n2, n3, n4, n5⟩ := nextFrom_spec alloc (s.nextC + 1)
      have hna := not_adv_of_eq ht rfl hx
      have hcalm := inv.calm hna
      simp only
      generalize hnew : taken alloc s.nextC = new
      unfold taken at hnew
      have hnew' : (s.nextC < alloc.length ∧ new = .wait s.nextC) ∨ (alloc.length ≤ s.nextC ∧ new = .done) := by
        by_cases h : s.nextC < alloc.length
        · left; rw [inv.hC h] at hnew; exact ⟨h, hnew.symm⟩
        · right
          rw [List.getElem?_eq_none (by omega)] at hnew
          exact ⟨by omega, hnew.symm⟩
      have hnadv : new.advancing = false := by rcases hnew' with ⟨_, h⟩ | ⟨_, h⟩ <;> subst h <;> rfl
      have hnwr : ∀ i, new ≠ .write i := by
        intro i e; rcases hnew' with ⟨_, h⟩ | ⟨_, h⟩ <;> rw [h] at e <;> simp at e
      have hna' : ∀ (u : Nat) (pc : WPc), (s.th.set t new)[u]? = some pc → pc.advancing = false := by
        intro u pc h
        rw [gs] at h
        split at h
        · simp at h; rw [← h]; exact hnadv
        · exact hna u pc h
      have old : ∀ (u : Nat) (pc : WPc), u ≠ t → (s.th.set t new)[u]? = some pc → s.th[u]? = some pc := by
        intro u pc hne h; rw [gs, if_neg hne] at h; exact h
      constructor
      · exact n4
      · intro i hi; have := inv.logC i hi; simp only; omega
      · intro i hi h
        simp only at h ⊢
        by_cases hlt : i < s.nextC
        · rcases inv.cov i hi hlt with h' | ⟨u, pc, hu, hh⟩
          · exact Or.inl h'
          · have hne : u ≠ t := by
              intro e; subst e; rw [ht, Option.some.injEq] at hu; subst hu; simp [WPc.holds] at hh
            exact Or.inr ⟨u, pc, by rw [gs, if_neg hne]; exact hu, hh⟩
        · have hieq : i = s.nextC := by
            by_cases e : i = s.nextC
            · exact e
            · exact absurd hi (n5 i (by omega) h)
          subst hieq
          have hlen : s.nextC < alloc.length := (List.getElem?_eq_some_iff.mp hi).1
          rcases hnew' with ⟨_, h'⟩ | ⟨h', _⟩
          · exact Or.inr ⟨t, new, by rw [gs, if_pos rfl], by rw [h']; rfl⟩
          · omega
      · intro u pc i h hh
        simp only
        by_cases hne : u = t
        · subst hne
          rw [gs, if_pos rfl, Option.some.injEq] at h
          subst h
          rcases hnew' with ⟨hl, h'⟩ | ⟨_, h'⟩
          · rw [h'] at hh
            simp only [WPc.holds, Option.some.injEq] at hh
            subst hh
            refine ⟨inv.hC hl, by omega, ?_, ?_⟩
            · by_cases hw : s.nextW ≤ s.nextC
              · exact hw
              · exfalso
                have : s.nextC ∈ s.log := by
                  rw [hcalm.1, mem_written]; exact ⟨by omega, inv.hC hl⟩
                have := inv.logC _ this
                omega
            · intro hm; have := inv.logC _ hm; omega
          · rw [h'] at hh; simp [WPc.holds] at hh
        · have := inv.held u pc i (old u pc hne h) hh
          exact ⟨this.1, by omega, this.2.2⟩
      · intro u v pc pc' i h h' hh hh'
        by_cases hu : u = t <;> by_cases hv : v = t
        · omega
        · exfalso
          subst hu
          rw [gs, if_pos rfl, Option.some.injEq] at h
          subst h
          have := inv.held v pc' i (old v pc' hv h') hh'
          rcases hnew' with ⟨hl, e⟩ | ⟨_, e⟩ <;> rw [e] at hh <;> simp [WPc.holds] at hh
          omega
        · exfalso
          subst hv
          rw [gs, if_pos rfl, Option.some.injEq] at h'
          subst h'
          have := inv.held u pc i (old u pc hu h) hh
          rcases hnew' with ⟨hl, e⟩ | ⟨_, e⟩ <;> rw [e] at hh' <;> simp [WPc.holds] at hh'
          omega
        · exact inv.dist u v pc pc' i (old u pc hu h) (old v pc' hv h') hh hh'
      · intro u i h
        refine ⟨?_, hna'⟩
        by_cases hu : u = t
        · subst hu; rw [gs, if_pos rfl, Option.some.injEq] at h; exact absurd h (hnwr i)
        · exact (inv.wr u i (old u _ hu h)).1
      · intro u v pc pc' h _ ha; rw [hna' u pc h] at ha; simp at ha
      · intro _; exact hcalm
      · intro u h; have := hna' u _ h; simp [WPc.advancing] at this
      · intro u v h; have := hna' u _ h; simp [WPc.advancing] at this
      · intro u h; have := hna' u _ h; simp [WPc.advancing] at this
      · intro u h; have := hna' u _ h; simp [WPc.advancing] at this
      · intro u h
        simp only
        by_cases hu : u = t
        · subst hu; rw [gs, if_pos rfl, Option.some.injEq] at h
          rcases hnew' with ⟨_, e⟩ | ⟨e', e⟩
          · rw [e] at h; simp at h
          · omega
        · have := inv.dn u (old u _ hu h); omega
    | wait i =>
      simp only
      by_cases hw : s.nextW = i
      · rw [if_pos hw]
        have hna := not_adv_of_eq ht rfl hx
        have old : ∀ (u : Nat) (pc : WPc), u ≠ t → (s.th.set t (.write i))[u]? = some pc → s.th[u]? = some pc := by
          intro u pc hne h; rw [gs, if_neg hne] at h; exact h
        have hna' : ∀ (u : Nat) (pc : WPc), (s.th.set t (.write i))[u]? = some pc → pc.advancing = false := by
          intro u pc h
          rw [gs] at h
          split at h
          · simp at h; rw [← h]; rfl
          · exact hna u pc h
        have same : ∀ (u : Nat) (pc : WPc) (j : Nat), (s.th.set t (.write i))[u]? = some pc → pc.holds = some j →
            ∃ pc', s.th[u]? = some pc' ∧ pc'.holds = some j := by
          intro u pc j h hh
          by_cases hu : u = t
          · subst hu; rw [gs, if_pos rfl, Option.some.injEq] at h
            subst h
            exact ⟨_, ht, hh⟩
          · exact ⟨pc, old u pc hu h, hh⟩
        constructor
        · exact inv.hC
        · exact inv.logC
        · intro j hj h
          rcases inv.cov j hj h with h' | ⟨u, pc, hu, hh⟩
          · exact Or.inl h'
          · right
            by_cases e : u = t
            · subst e
              rw [ht, Option.some.injEq] at hu; subst hu
              exact ⟨u, .write i, by rw [gs, if_pos rfl], hh⟩
            · exact ⟨u, pc, by rw [gs, if_neg e]; exact hu, hh⟩
        · intro u pc j h hh
          obtain ⟨pc', h1, h2⟩ := same u pc j h hh
          exact inv.held u pc' j h1 h2
        · intro u v pc pc' j h h' hh hh'
          obtain ⟨p1, a1, a2⟩ := same u pc j h hh
          obtain ⟨p2, b1, b2⟩ := same v pc' j h' hh'
          exact inv.dist u v p1 p2 j a1 b1 a2 b2
        · intro u j h
          refine ⟨?_, hna'⟩
          by_cases hu : u = t
          · subst hu; rw [gs, if_pos rfl] at h; simp at h; simp only; omega
          · exact (inv.wr u j (old u _ hu h)).1
        · intro u v pc pc' h _ ha; rw [hna' u pc h] at ha; simp at ha
        · intro _; exact inv.calm hna
        · intro u h; have := hna' u _ h; simp [WPc.advancing] at this
        · intro u v h; have := hna' u _ h; simp [WPc.advancing] at this
        · intro u h; have := hna' u _ h; simp [WPc.advancing] at this
        · intro u h; have := hna' u _ h; simp [WPc.advancing] at this
        · intro u h
          by_cases hu : u = t
          · subst hu; rw [gs, if_pos rfl] at h; simp at h
          · exact inv.dn u (old u _ hu h)
      · rw [if_neg hw]; exact inv
    | write i =>
      simp only
      have hna := not_adv_of_eq ht rfl hx
      obtain ⟨hcl, hcn, hca⟩ := inv.calm hna
      have hiw := (inv.wr t i ht).1
      have hh := inv.held t _ i ht rfl
      have hil : i < alloc.length := (List.getElem?_eq_some_iff.mp hh.1).1
      have old : ∀ (u : Nat) (pc : WPc), u ≠ t → (s.th.set t .load)[u]? = some pc → s.th[u]? = some pc := by
        intro u pc hne h; rw [gs, if_neg hne] at h; exact h
      have hat : ∀ (u : Nat) (pc : WPc), (s.th.set t .load)[u]? = some pc → pc.advancing = true →
          u = t ∧ pc = .load := by
        intro u pc h ha
        by_cases hu : u = t
        · subst hu; rw [gs, if_pos rfl, Option.some.injEq] at h; exact ⟨rfl, h.symm⟩
        · rw [hna u pc (old u pc hu h)] at ha; simp at ha
      have hol : ∀ (u : Nat) (pc : WPc) (j : Nat), (s.th.set t .load)[u]? = some pc → pc.holds = some j →
          u ≠ t ∧ s.th[u]? = some pc := by
        intro u pc j h hj
        by_cases hu : u = t
        · subst hu; rw [gs, if_pos rfl, Option.some.injEq] at h; subst h; simp [WPc.holds] at hj
        · exact ⟨hu, old u pc hu h⟩
      have hlog : s.log ++ [i] = written alloc (s.nextW + 1) := by
        rw [written_succ, hcl, hiw, if_pos (hiw ▸ hh.1)]
      constructor
      · exact inv.hC
      · intro j hj
        simp only [List.mem_append, List.mem_singleton] at hj
        rcases hj with hj | hj
        · exact inv.logC j hj
        · subst hj; exact hh.2.1
      · intro j hj h
        simp only [List.mem_append, List.mem_singleton]
        rcases inv.cov j hj h with h' | ⟨u, pc, hu, hhj⟩
        · exact Or.inl (Or.inl h')
        · by_cases e : u = t
          · subst e; rw [ht, Option.some.injEq] at hu; subst hu
            simp [WPc.holds] at hhj
            exact Or.inl (Or.inr hhj.symm)
          · exact Or.inr ⟨u, pc, by rw [gs, if_neg e]; exact hu, hhj⟩
      · intro u pc j h hj
        obtain ⟨hu, h'⟩ := hol u pc j h hj
        have := inv.held u pc j h' hj
        refine ⟨this.1, this.2.1, this.2.2.1, ?_⟩
        simp only [List.mem_append, List.mem_singleton, not_or]
        refine ⟨this.2.2.2, ?_⟩
        intro e
        subst e
        exact hu (inv.dist u t pc _ j h' ht hj rfl)
      · intro u v pc pc' j h h' hj hj'
        exact inv.dist u v pc pc' j (hol u pc j h hj).2 (hol v pc' j h' hj').2 hj hj'
      · intro u j h
        exfalso
        obtain ⟨hu, h'⟩ := hol u _ j h rfl
        have e := (inv.wr u j h').1
        exact hu (inv.dist u t _ _ j h' ht rfl (by simp [WPc.holds]; omega))
      · intro u v pc pc' h h' ha ha'
        rw [(hat u pc h ha).1, (hat v pc' h' ha').1]
      · intro hc
        have := hc t .load (by rw [gs, if_pos rfl])
        simp [WPc.advancing] at this
      · intro u h; exact ⟨hlog, by simp only; omega⟩
      · intro u v h; have := (hat u _ h rfl).2; simp at this
      · intro u h; have := (hat u _ h rfl).2; simp at this
      · intro u h; have := (hat u _ h rfl).2; simp at this
      · intro u h
        by_cases hu : u = t
        · subst hu; rw [gs, if_pos rfl] at h; simp at h
        · exact inv.dn u (old u _ hu h)
    | load =>
      obtain ⟨hl, hn⟩ := inv.ld t ht
      exact adv_case inv ht rfl hx (.store (s.nextW + 1)) s.nextW rfl (by simp)
        (fun u pc i h hh => (inv.held u pc i h hh).2.2.1) (by simp [WPc.advancing]) (by simp)
        (by intro v h; simp at h; subst h; exact ⟨rfl, hl, hn⟩) (by simp) (by simp)
    | store v =>
      obtain ⟨hv, hl, hn⟩ := inv.st t v ht
      subst hv
      refine adv_case inv ht rfl hx .test (s.nextW + 1) rfl (by simp) ?_ (by simp [WPc.advancing]) (by simp)
        (by simp) (fun _ => ⟨hl, by omega⟩) (by simp)
      intro u pc i h hh
      have := inv.held u pc i h hh
      by_cases e : i = s.nextW
      · exfalso
        apply this.2.2.2
        rw [hl, mem_written]; subst e; exact ⟨by omega, this.1⟩
      · omega
    | test =>
      obtain ⟨hl, hn⟩ := inv.ts t ht
      simp only
      by_cases hw : s.nextW < alloc.length
      · rw [if_pos hw]
        exact adv_case inv ht rfl hx .flag s.nextW rfl (by simp)
          (fun u pc i h hh => (inv.held u pc i h hh).2.2.1) (by simp [WPc.advancing]) (by simp) (by simp) (by simp)
          (fun _ => ⟨hl, hw⟩)
      · rw [if_neg hw]
        exact adv_case inv ht rfl hx .fetch s.nextW rfl (by simp)
          (fun u pc i h hh => (inv.held u pc i h hh).2.2.1) (fun _ => ⟨hl, hn, fun h => absurd h hw⟩) (by simp)
          (by simp) (by simp) (by simp)
    | flag =>
      obtain ⟨hl, hn⟩ := inv.fl t ht
      simp only [List.getElem?_eq_getElem hn, Option.getD_some]
      by_cases ha : alloc[s.nextW] = true
      · rw [if_pos ha]
        exact adv_case inv ht rfl hx .fetch s.nextW rfl (by simp)
          (fun u pc i h hh => (inv.held u pc i h hh).2.2.1)
          (fun _ => ⟨hl, by omega, fun h => by rw [List.getElem?_eq_getElem hn, ha]⟩) (by simp)
          (by simp) (by simp) (by simp)
      · rw [if_neg ha]
        exact adv_case inv ht rfl hx .load s.nextW rfl (by simp)
          (fun u pc i h hh => (inv.held u pc i h hh).2.2.1) (by simp [WPc.advancing])
          (fun _ => ⟨by
            rw [written_succ, List.getElem?_eq_getElem hn, if_neg (by simp [ha]), List.append_nil]; exact hl, hn⟩)
          (by simp) (by simp) (by simp)

end F3D.BlockThreads

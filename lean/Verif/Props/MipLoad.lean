import Verif.Proofs.MipLoad

/-!
# C64: MIP levels loaded on demand
-/

namespace F3D.Props
open F3D F3D.MipLoad

/-! ## Specification -/

/-- All accesses ask for levels that exist. -/
def LevelsExist (n : Nat) (programs : List (List (Nat × Kind))) : Prop := ∀ p ∈ programs, ∀ a ∈ p, a.1 < n

/-- `a` is the first call of the load action of level `l` that gives a field. -/
def FirstSuccess (disk : Nat → Nat → Bool) (l a : Nat) : Prop := disk l a = true ∧ ∀ b < a, disk l b = false

/-- The exceptions threads got for level `l`. -/
def exceptions (s : State) (l : Nat) : Nat := (s.threads.map fun th => th.out.count (.threw l)).sum

/-! ## Lemmas -/

theorem load_inv {n : Nat} {programs : List (List (Nat × Kind))} (h : LevelsExist n programs) (disk : Nat → Nat → Bool)
    {sched : List Nat} {s : State} (hs : (State.init programs).run n disk sched = some s) :
    Inv (fun l => l < n) disk s := by
  obtain ⟨s', e, hi⟩ := inv_run (fun _ h => h) sched (inv_init (fun l => l < n) disk programs h)
  rw [hs] at e
  cases e
  exact hi

/-! ## C64 -/

/-- C64: no interleaving uses a load action that has been discarded, or a level that does not exist. -/
theorem C64_defined (n : Nat) (programs : List (List (Nat × Kind))) (h : LevelsExist n programs) (disk : Nat → Nat → Bool)
    (sched : List Nat) : ∃ s, (State.init programs).run n disk sched = some s := by
  obtain ⟨s, e, _⟩ := inv_run (fun _ h => h) sched (inv_init (fun l => l < n) disk programs h)
  exact ⟨s, e⟩

/-- C64: whatever the interleaving, the load action of a level is called until it first gives a field, and never again. -/
theorem C64_loaded_once (n : Nat) (programs : List (List (Nat × Kind))) (h : LevelsExist n programs)
    (disk : Nat → Nat → Bool) (sched : List Nat) (s : State) (hs : (State.init programs).run n disk sched = some s) (l : Nat) :
    ∀ b, b + 1 < s.calls l → disk l b = false := by
  intro b hb
  have := (load_inv h disk hs).obj l
  unfold ObjOk at this
  split at this
  · exact this.2 b (by omega)
  · exact this.2.2 b (by omega)

/-- C64: every access that returns gives the field of the first successful call: all threads get the same field, and none a
null pointer. -/
theorem C64_same_field (n : Nat) (programs : List (List (Nat × Kind))) (h : LevelsExist n programs)
    (disk : Nat → Nat → Bool) (sched : List Nat) (s : State) (hs : (State.init programs).run n disk sched = some s)
    (th : Thread) (hth : th ∈ s.threads) (l : Nat) (obj : Option Nat) (r : Bool) (ho : Out.returned l obj r ∈ th.out) :
    ∃ a, obj = some a ∧ FirstSuccess disk l a := by
  have hi := load_inv h disk hs
  obtain ⟨h1, h2⟩ := (hi.th th hth).out l obj r ho
  cases obj with
  | none => exact absurd rfl h1
  | some a =>
    have := hi.obj l
    unfold ObjOk at this
    rw [← h2] at this
    exact ⟨a, rfl, this.2⟩

/-- C64: when all threads have ended, each call that gave no field made exactly one access throw. -/
theorem C64_exceptions (n : Nat) (programs : List (List (Nat × Kind))) (h : LevelsExist n programs)
    (disk : Nat → Nat → Bool) (sched : List Nat) (s : State) (hs : (State.init programs).run n disk sched = some s)
    (hf : s.finished = true) (l : Nat) :
    exceptions s l = ((List.range (s.calls l)).filter fun b => decide (disk l b = false)).length := by
  have hi := load_inv h disk hs
  have hc := hi.count l
  have e : s.throws l = exceptions s l := by
    unfold State.throws exceptions
    congr 1
    apply List.map_congr_left
    intro th hth
    unfold State.finished at hf
    have := List.all_eq_true.1 hf th hth
    unfold Thread.finished at this
    simp only [Bool.and_eq_true, decide_eq_true_eq] at this
    simp [Thread.throws, this.1]
  rw [e] at hc
  have ho := hi.obj l
  unfold ObjOk at ho
  cases hfl : s.fields l with
  | none =>
    rw [hfl] at ho hc
    have : (List.range (s.calls l)).filter (fun b => decide (disk l b = false)) = List.range (s.calls l) := by
      apply List.filter_eq_self.2
      intro b hb
      simp [ho.2 b (List.mem_range.1 hb)]
    rw [this, List.length_range]
    simpa using hc
  | some a =>
    rw [hfl] at ho hc
    have : (List.range a).filter (fun b => decide (disk l b = false)) = List.range a := by
      apply List.filter_eq_self.2
      intro b hb
      simp [ho.2.2 b (List.mem_range.1 hb)]
    rw [ho.1, List.range_succ, List.filter_append, this]
    simp [ho.2.1]
    simp at hc
    omega

/-- C64: only levels that some thread asks for are loaded. -/
theorem C64_on_demand (n : Nat) (programs : List (List (Nat × Kind))) (h : LevelsExist n programs)
    (disk : Nat → Nat → Bool) (sched : List Nat) (s : State) (hs : (State.init programs).run n disk sched = some s) (l : Nat)
    (hl : ∀ p ∈ programs, ∀ a ∈ p, a.1 ≠ l) : s.calls l = 0 ∧ s.fields l = none := by
  obtain ⟨s', e, hi⟩ := inv_run (P := fun i => i < n ∧ i ≠ l) (fun _ h => h.1) sched
    (inv_init (fun i => i < n ∧ i ≠ l) disk programs fun p hp a ha => ⟨h p hp a ha, hl p hp a ha⟩)
  rw [hs] at e
  cases e
  have h0 : s.calls l = 0 := by
    cases hc : s.calls l with
    | zero => rfl
    | succ c => exact absurd rfl (hi.lazy l (by omega)).2
  refine ⟨h0, ?_⟩
  have := hi.obj l
  unfold ObjOk at this
  cases hf : s.fields l with
  | none => rfl
  | some a => rw [hf] at this; have := this.1; omega

/-- C64: while no thread is loading, every level that is loaded is visible with its metadata and mapping. -/
theorem C64_ready (n : Nat) (programs : List (List (Nat × Kind))) (h : LevelsExist n programs)
    (disk : Nat → Nat → Bool) (sched : List Nat) (s : State) (hs : (State.init programs).run n disk sched = some s)
    (hm : s.mutex = none) (l : Nat) :
    s.raw l = s.fields l ∧ (s.fields l ≠ none → s.synced l = true ∧ s.mapped l = true) := by
  have := (load_inv h disk hs).rel
  rw [hm] at this
  exact this l

/-- C64: if every thread takes a turn often enough all accesses end: no deadlock. -/
theorem C64_terminates (n : Nat) (programs : List (List (Nat × Kind))) (h : LevelsExist n programs)
    (disk : Nat → Nat → Bool) (rounds : List (List Nat)) (hr : ∀ r ∈ rounds, ∀ t < programs.length, t ∈ r)
    (hlen : (12 + n) * (programs.map List.length).sum < rounds.length) :
    ∃ s, (State.init programs).run n disk rounds.flatten = some s ∧ s.finished = true := by
  have hl : (State.init programs).left n = (12 + n) * (programs.map List.length).sum := by
    unfold State.left State.init
    simp only [List.map_map]
    induction programs with
    | nil => simp
    | cons p ps ih =>
      have := ih (fun q hq => h q (List.mem_cons_of_mem _ hq))
        (fun r hr' t ht => hr r hr' t (by simp only [List.length_cons]; omega))
        (by simp only [List.map_cons, List.sum_cons, Nat.mul_add] at hlen; omega)
      simp only [List.map_cons, List.sum_cons, this, Nat.mul_add]
      simp [Thread.cost, Pc.cost]
  exact rounds_finish (fun _ h => h) rounds (inv_init (fun l => l < n) disk programs h)
    (by simp only [State.init, List.length_map]; exact hr) (by rw [hl]; exact hlen)

/-- The outcome of each thread. -/
def outs (s : State) : List (List Out) := s.threads.map fun th => th.out

/-- C64: a thread can be given a level before its metadata and mapping are set, because the pointer is published first: with
two threads and one level, the second thread reads while the first has only published. -/
theorem C64_early : ∃ s, (State.init [[(0, .raw)], [(0, .raw)]]).run 1 (fun _ _ => true)
    [0, 0, 0, 0, 0, 0, 0, 0, 1, 1, 1] = some s ∧ outs s = [[], [.returned 0 (some 0) false]] := ⟨_, rfl, rfl⟩

/-! Cases: two threads want level 1 of two; the first call fails, so one access throws and the other loads the level. -/

example : LevelsExist 2 [[(1, .raw)], [(1, .shared), (0, .raw)]] := by
  intro p hp a ha
  simp at hp
  rcases hp with rfl | rfl <;> simp at ha
  · subst ha; decide
  · rcases ha with rfl | rfl <;> decide

example : ∃ s, (State.init [[(1, .raw)], [(1, .shared), (0, .raw)]]).run 2 (fun l b => l == 0 || b == 1)
    ([0, 1, 0, 1, 0, 1, 0, 0, 0, 0] ++ List.replicate 30 1) = some s ∧ s.finished = true ∧
    outs s = [[.threw 1], [.returned 1 (some 1) true, .returned 0 (some 0) true]] ∧ s.calls 1 = 2 := ⟨_, rfl, rfl, rfl, rfl⟩

end F3D.Props

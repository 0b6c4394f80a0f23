import Verif.Model.BlockThreads

namespace F3D.BlockThreads

theorem get_set {α : Type} {l : List α} {t : Nat} {a : α} (h : l[t]? = some a) (b : α) (u : Nat) :
    (l.set t b)[u]? = if u = t then some b else l[u]? := by
  have ht : t < l.length := by
    rw [List.getElem?_eq_some_iff] at h; exact h.1
  rw [List.getElem?_set]
  by_cases e : t = u
  · subst e; simp [ht]
  · simp [e, Ne.symm e]

/-! ## Reading -/

section Read
variable {β : Type} (alloc : β → Bool) (fill : Nat → β → β)

/-- A filled block still counts as allocated. -/
def KeepsAlloc : Prop := ∀ i b, alloc b = true → alloc (fill i b) = true

structure RInv (bs : List β) (s : RState β) : Prop where
  len : s.blocks.length = bs.length
  held : ∀ (u i : Nat), s.th[u]? = some (.read i) → i < s.next ∧ i < bs.length
  dist : ∀ (u v i : Nat), s.th[u]? = some (.read i) → s.th[v]? = some (.read i) → u = v
  todo : ∀ i : Nat, (s.next ≤ i ∨ ∃ u : Nat, s.th[u]? = some (.read i)) → s.blocks[i]? = bs[i]? ∧ i ∉ s.log
  did : ∀ i b, bs[i]? = some b → i < s.next → (∀ u : Nat, s.th[u]? ≠ some (.read i)) →
    s.blocks[i]? = some (if alloc b then fill i b else b) ∧ (alloc b = true → i ∈ s.log)
  logs : s.log.Nodup ∧ ∀ i ∈ s.log, ∃ b, bs[i]? = some b ∧ alloc b = true
  dn : ∀ u : Nat, s.th[u]? = some .done → bs.length ≤ s.next

theorem rinv_init (threads : Nat) (bs : List β) : RInv alloc fill bs (RState.init threads bs) := by
  have hth : ∀ (u : Nat) pc, (List.replicate threads RPc.fetch)[u]? = some pc → pc = .fetch := by
    intro u pc h
    rw [List.getElem?_replicate] at h
    split at h <;> simp_all
  constructor
  · rfl
  · intro u i h; have := hth u _ h; simp at this
  · intro u v i h; have := hth u _ h; simp at this
  · intro i _; simp [RState.init]
  · intro i b _ h; simp [RState.init] at h
  · simp [RState.init]
  · intro u h; have := hth u _ h; simp at this

theorem rinv_step {bs : List β} {s : RState β} (inv : RInv alloc fill bs s) (t : Nat) :
    RInv alloc fill bs (s.step alloc fill t) := by
  unfold RState.step
  cases ht : s.th[t]? with
  | none => exact inv
  | some pc =>
    have gs := fun b u => get_set ht b u
    cases pc with
    | done => exact inv
    | fetch =>
      simp only [inv.len]
      constructor
      · exact inv.len
      · intro u i h
        simp only [gs] at h
        split at h
        · split at h <;> simp at h
          subst h; simp only; omega
        · have := inv.held u i h; simp only; omega
      · intro u v i h h'
        simp only [gs] at h h'
        split at h <;> split at h'
        · simp_all
        · split at h <;> simp at h
          have := inv.held v i h'; omega
        · split at h' <;> simp at h'
          have := inv.held u i h; omega
        · exact inv.dist u v i h h'
      · intro i h
        simp only at h ⊢
        apply inv.todo
        rcases h with h | ⟨u, h⟩
        · left; omega
        · simp only [gs] at h
          split at h
          · split at h <;> simp at h
            left; omega
          · exact Or.inr ⟨u, h⟩
      · intro i b hb h hu
        simp only at h ⊢
        have hib : i < bs.length := by rw [List.getElem?_eq_some_iff] at hb; exact hb.1
        have hin : i ≠ s.next := by
          intro e
          have := hu t
          simp only [gs, if_true] at this
          rw [if_pos (by omega), e] at this
          exact this rfl
        refine inv.did i b hb (by omega) ?_
        intro u h'
        have := hu u
        simp only [gs] at this
        split at this
        · subst u; rw [ht] at h'; simp at h'
        · exact this h'
      · exact inv.logs
      · intro u h
        simp only [gs] at h
        simp only
        split at h
        · split at h <;> simp at h
          omega
        · have := inv.dn u h; omega
    | read i =>
      have hi := inv.held t i ht
      have htd := inv.todo i (Or.inr ⟨t, ht⟩)
      have hbi : s.blocks[i]? = some bs[i] := by rw [htd.1]; exact List.getElem?_eq_getElem hi.2
      simp only [hbi]
      by_cases ha : alloc bs[i] = true
      · simp only [ha, if_true]
        have gb := fun b u => get_set hbi b u
        constructor
        · simp [inv.len]
        · intro u j h
          simp only [gs] at h
          split at h
          · simp at h
          · exact inv.held u j h
        · intro u v j h h'
          simp only [gs] at h h'
          split at h <;> split at h' <;> first | exact inv.dist u v j h h' | simp at h | simp at h'
        · intro j h
          have hj : j ≠ i := by
            intro e
            subst e
            rcases h with h | ⟨u, h⟩
            · simp only at h; omega
            · simp only [gs] at h
              split at h
              · simp at h
              · rename_i hne; exact hne (inv.dist u t j h ht)
          have := inv.todo j (by
            rcases h with h | ⟨u, h⟩
            · exact Or.inl h
            · simp only [gs] at h
              split at h
              · simp at h
              · exact Or.inr ⟨u, h⟩)
          simp only [gb, if_neg hj]
          exact ⟨this.1, by simp [this.2, hj]⟩
        · intro j b hb h hu
          simp only [gb]
          by_cases hj : j = i
          · subst hj
            rw [List.getElem?_eq_getElem hi.2, Option.some.injEq] at hb
            subst hb
            simp [ha]
          · rw [if_neg hj]
            have := inv.did j b hb h (by
              intro u h'
              have := hu u
              simp only [gs] at this
              split at this
              · subst u; rw [ht] at h'; simp at h'; exact hj h'.symm
              · exact this h')
            exact ⟨this.1, fun x => by simp [this.2 x]⟩
        · refine ⟨?_, ?_⟩
          · rw [List.nodup_append]
            refine ⟨inv.logs.1, by simp, ?_⟩
            intro a ha' b hb e
            simp at hb
            rw [e, hb] at ha'
            exact htd.2 ha'
          · intro j hj
            simp only [List.mem_append, List.mem_singleton] at hj
            rcases hj with hj | hj
            · exact inv.logs.2 j hj
            · subst hj; exact ⟨bs[j], List.getElem?_eq_getElem hi.2, ha⟩
        · intro u h
          simp only [gs] at h
          split at h
          · simp at h
          · exact inv.dn u h
      · simp only [ha]
        have ha' : alloc bs[i] = false := by simpa using ha
        constructor
        · exact inv.len
        · intro u j h
          simp only [gs, Bool.false_eq_true, if_false] at h
          split at h
          · simp at h
          · exact inv.held u j h
        · intro u v j h h'
          simp only [gs, Bool.false_eq_true, if_false] at h h'
          split at h <;> split at h' <;> first | exact inv.dist u v j h h' | simp at h | simp at h'
        · intro j h
          refine inv.todo j ?_
          rcases h with h | ⟨u, h⟩
          · exact Or.inl h
          · simp only [gs, Bool.false_eq_true, if_false] at h
            split at h
            · simp at h
            · exact Or.inr ⟨u, h⟩
        · intro j b hb h hu
          by_cases hj : j = i
          · subst hj
            rw [List.getElem?_eq_getElem hi.2, Option.some.injEq] at hb
            subst hb
            simp [ha', hbi]
          · have := inv.did j b hb h (by
              intro u h'
              have := hu u
              simp only [gs, Bool.false_eq_true, if_false] at this
              split at this
              · subst u; rw [ht] at h'; simp at h'; exact hj h'.symm
              · exact this h')
            exact this
        · exact inv.logs
        · intro u h
          simp only [gs, Bool.false_eq_true, if_false] at h
          split at h
          · simp at h
          · exact inv.dn u h

theorem rinv_run {bs : List β} (sched : List Nat) : ∀ {s : RState β}, RInv alloc fill bs s →
    RInv alloc fill bs (s.run alloc fill sched) := by
  induction sched with
  | nil => intro s h; exact h
  | cons t ts ih => intro s h; exact ih (rinv_step alloc fill h t)

theorem rth_length (sched : List Nat) : ∀ (s : RState β), (s.run alloc fill sched).th.length = s.th.length := by
  induction sched with
  | nil => intro s; rfl
  | cons t ts ih =>
    intro s
    show ((s.step alloc fill t).run alloc fill ts).th.length = _
    rw [ih]
    unfold RState.step
    split
    · simp
    · split
      · split <;> simp
      · rfl
    · rfl

/-- Steps a thread still has to make. -/
def rweight : RPc → Nat
  | .fetch => 1
  | .read _ => 2
  | .done => 0

def rmeasure (n : Nat) (s : RState β) : Nat := 2 * (n - s.next) + (s.th.map rweight).sum

theorem sum_set {α : Type} (w : α → Nat) : ∀ (l : List α) (t : Nat) (a b : α), l[t]? = some a →
    ((l.set t b).map w).sum + w a = (l.map w).sum + w b
  | [], t, a, b, h => by simp at h
  | x :: xs, 0, a, b, h => by
    simp only [List.getElem?_cons_zero, Option.some.injEq] at h
    subst h
    simp only [List.set_cons_zero, List.map_cons, List.sum_cons]; omega
  | x :: xs, t + 1, a, b, h => by
    simp only [List.getElem?_cons_succ] at h
    have := sum_set w xs t a b h
    simp only [List.set_cons_succ, List.map_cons, List.sum_cons]; omega

theorem rmeasure_step {bs : List β} {s : RState β} (inv : RInv alloc fill bs s) (t : Nat) (pc : RPc)
    (ht : s.th[t]? = some pc) (hpc : pc ≠ .done) :
    rmeasure bs.length (s.step alloc fill t) < rmeasure bs.length s := by
  unfold RState.step
  rw [ht]
  cases pc with
  | done => exact absurd rfl hpc
  | fetch =>
    simp only [inv.len, rmeasure]
    have := sum_set rweight s.th t .fetch (if s.next < bs.length then .read s.next else .done) ht
    split
    · rename_i h; rw [if_pos h] at this; simp only [rweight] at this; omega
    · rename_i h; rw [if_neg h] at this; simp only [rweight] at this; omega
  | read i =>
    have hi := inv.held t i ht
    have htd := inv.todo i (Or.inr ⟨t, ht⟩)
    have hbi : s.blocks[i]? = some bs[i] := by rw [htd.1]; exact List.getElem?_eq_getElem hi.2
    have := sum_set rweight s.th t (.read i) .fetch ht
    simp only [hbi]
    split <;> simp only [rmeasure, rweight] at * <;> omega

end Read
end F3D.BlockThreads

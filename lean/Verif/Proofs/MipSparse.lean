import Verif.Proofs.MipThreads
import Verif.Proofs.Sparse

/-!
# Threads that store into a sparse target
-/

namespace F3D
namespace MipThreads
open Sparse (BWF bval)

/-- The value of element `o` of block `i` after the given values are stored. -/
def finalOf (v : Option ℚ) (ws : List Write) (i o : ℕ) : Option ℚ :=
  ws.foldl (fun a w => if w.block = i ∧ w.off = o then some w.v else a) v

/-- Where a thread is as far as block `i` is concerned. -/
def phase (th : SThread) (i : ℕ) : SPc :=
  match th.todo with
  | [] => .test
  | w :: _ => if w.block = i then th.pc else .test

/-- What holds for block `i`, whose owner is in state `th`. -/
def Good (size : ℕ) (F : ℕ → ℕ → Option ℚ) (i : ℕ) (th : SThread) (b : Block ℚ) : Prop :=
  match phase th i with
  | .test => BWF size b ∧ ∀ o < size, finalOf (bval b o) th.todo i o = F i o
  | .grow => BWF size b ∧ b.isAllocated = false ∧ ∀ o < size, finalOf (bval b o) th.todo i o = F i o
  | .fill => BWF size b ∧ b.isAllocated = true ∧ ∀ o < size, finalOf (some b.emptyValue) th.todo i o = F i o
  | .store => BWF size b ∧ b.isAllocated = true ∧ ∀ o < size, finalOf (bval b o) th.todo i o = F i o

structure SInv (size N : ℕ) (owner : ℕ → ℕ) (F : ℕ → ℕ → Option ℚ) (s : SState) : Prop where
  own : ∀ (t : ℕ) (th : SThread), s.th[t]? = some th → ∀ w ∈ th.todo, w.block < N ∧ w.off < size ∧ owner w.block = t
  len : s.blocks.length = N
  good : ∀ (i : ℕ) (b : Block ℚ), s.blocks[i]? = some b → Good size F i ((s.th[owner i]?).getD ⟨.test, []⟩) b

variable {size N : ℕ} {owner : ℕ → ℕ} {F : ℕ → ℕ → Option ℚ}

/-- Replacing the state of a thread and the block it owns. -/
theorem SInv.set {s : SState} (h : SInv size N owner F s) {t : ℕ} {pc : SPc} {w : Write} {l : List Write}
    (ht : s.th[t]? = some ⟨pc, w :: l⟩) (th' : SThread) (b' : Block ℚ)
    (hth : th'.todo = w :: l ∨ th'.todo = l ∧ th'.pc = .test)
    (hg : Good size F w.block th' b') :
    SInv size N owner F ⟨s.blocks.set w.block b', s.th.set t th'⟩ := by
  have htl : t < s.th.length := (List.getElem?_eq_some_iff.1 ht).1
  have how := h.own t _ ht
  have hw := how w (List.mem_cons_self ..)
  refine ⟨fun u th hu x hx => ?_, by simp [h.len], fun i b hb => ?_⟩
  · simp only [List.getElem?_set] at hu
    split at hu
    · rename_i e; subst e
      cases hu
      apply how
      rcases hth with hth | ⟨hth, _⟩
      · rw [hth] at hx; exact hx
      · rw [hth] at hx; exact List.mem_cons_of_mem _ hx
    · exact h.own u th hu x hx
  · simp only [List.getElem?_set] at hb ⊢
    by_cases hi : w.block = i
    · subst hi
      rw [if_pos rfl, if_pos (by rw [h.len]; exact hw.1)] at hb
      cases hb
      rw [hw.2.2, if_pos rfl, if_pos htl]
      exact hg
    · rw [if_neg hi] at hb
      have hg' := h.good i b hb
      by_cases ho : t = owner i
      · rw [if_pos ho, if_pos htl]
        rw [← ho, ht] at hg'
        have p1 : phase ⟨pc, w :: l⟩ i = .test := by simp [phase, hi]
        have p2 : phase th' i = .test := by
          unfold phase
          rcases hth with hth | ⟨hth, hp⟩
          · rw [hth]; simp [hi]
          · rw [hth, hp]
            cases l with
            | nil => rfl
            | cons x l => simp
        unfold Good at hg' ⊢
        simp only [Option.getD_some] at hg' ⊢
        rw [p1] at hg'
        rw [p2]
        refine ⟨hg'.1, fun o hoo => ?_⟩
        have := hg'.2 o hoo
        have e : finalOf (bval b o) (w :: l) i o = finalOf (bval b o) l i o := by
          simp [finalOf, hi]
        rcases hth with hth | ⟨hth, _⟩
        · rw [hth]; exact this
        · rw [hth, ← e]; exact this
      · rw [if_neg ho]; exact hg'

theorem sinv_step (junk : ℚ) {s : SState} (h : SInv size N owner F s) (t : ℕ) :
    ∃ s', s.step size junk t = some s' ∧ SInv size N owner F s' := by
  unfold SState.step
  cases ht : s.th[t]? with
  | none => exact ⟨s, rfl, h⟩
  | some th =>
    obtain ⟨pc, todo⟩ := th
    cases todo with
    | nil => exact ⟨s, rfl, h⟩
    | cons w l =>
      have hw := h.own t _ ht w (List.mem_cons_self ..)
      obtain ⟨b, hb⟩ : ∃ b, s.blocks[w.block]? = some b :=
        ⟨_, List.getElem?_eq_getElem (by rw [h.len]; exact hw.1)⟩
      have hself : s.blocks.set w.block b = s.blocks := by
        obtain ⟨hl, he⟩ := List.getElem?_eq_some_iff.1 hb
        rw [← he]; exact List.set_getElem_self hl
      have hg := h.good w.block b hb
      rw [hw.2.2, ht] at hg
      simp only [hb, Option.getD_some] at hg ⊢
      have ph : ∀ pc', phase ⟨pc', w :: l⟩ w.block = pc' := fun pc' => by simp [phase]
      unfold Good at hg
      rw [ph] at hg
      cases pc with
      | test =>
        refine ⟨_, rfl, ?_⟩
        have := h.set ht ⟨if b.isAllocated then .store else .grow, w :: l⟩ b (.inl rfl) (by
          unfold Good
          rw [ph]
          cases hba : b.isAllocated with
          | false => exact ⟨hg.1, rfl, hg.2⟩
          | true => exact ⟨hg.1, rfl, hg.2⟩)
        rw [hself] at this
        exact this
      | grow =>
        refine ⟨_, rfl, h.set ht ⟨.fill, w :: l⟩ _ (.inl rfl) ?_⟩
        unfold Good
        rw [ph]
        refine ⟨by simp [BWF], rfl, fun o ho => ?_⟩
        have := hg.2.2 o ho
        simp only [bval, hg.2.1] at this
        exact this
      | fill =>
        refine ⟨_, rfl, h.set ht ⟨.store, w :: l⟩ _ (.inl rfl) ?_⟩
        obtain ⟨hbw, hba, hbf⟩ := hg
        unfold BWF at hbw
        rw [if_pos hba] at hbw
        obtain ⟨d, hd, hl⟩ := hbw
        unfold Good
        rw [ph]
        refine ⟨by simp [BWF, hba, hd, hl], hba, fun o ho => ?_⟩
        have e : bval { b with data := b.data.map fun d => List.replicate d.length b.emptyValue } o = some b.emptyValue := by
          simp [bval, hba, Block.read, hd, hl, ho]
        rw [e]
        exact hbf o ho
      | store =>
        obtain ⟨hbw, hba, hbf⟩ := hg
        have hbw' := hbw
        unfold BWF at hbw
        rw [if_pos hba] at hbw
        obtain ⟨d, hd, hl⟩ := hbw
        have e : b.write w.off w.v = some { b with data := some (d.set w.off w.v) } := by
          simp [Block.write, hd, hl, hw.2.1]
        rw [e]
        refine ⟨_, rfl, h.set ht ⟨.test, l⟩ _ (.inr ⟨rfl, rfl⟩) ?_⟩
        have p2 : phase ⟨.test, l⟩ w.block = .test := by
          unfold phase
          cases l with
          | nil => rfl
          | cons x l => simp
        unfold Good
        rw [p2]
        refine ⟨Sparse.BWF.set _ _ hba hl, fun o ho => ?_⟩
        rw [← hbf o ho]
        unfold finalOf
        rw [List.foldl_cons]
        congr 1
        by_cases hoo : w.off = o
        · subst hoo
          simp [bval, hba, Block.read, hl, ho]
        · simp [bval, hba, Block.read, hd, hoo, List.getElem?_set_ne]

theorem sinv_run (junk : ℚ) : ∀ (sched : List ℕ) (s : SState), SInv size N owner F s →
    ∃ s', SState.run size junk s sched = some s' ∧ SInv size N owner F s'
  | [], s, h => ⟨s, rfl, h⟩
  | t :: l, s, h => by
    obtain ⟨s1, e1, h1⟩ := sinv_step junk h t
    obtain ⟨s2, e2, h2⟩ := sinv_run junk l s1 h1
    refine ⟨s2, ?_, h2⟩
    unfold SState.run
    rw [e1]; exact e2

theorem sinv_finished {s : SState} (h : SInv size N owner F s) (hf : s.finished) (i : ℕ) (b : Block ℚ)
    (hb : s.blocks[i]? = some b) : BWF size b ∧ ∀ o < size, bval b o = F i o := by
  have hg := h.good i b hb
  have ht : ((s.th[owner i]?).getD ⟨.test, []⟩).todo = [] := by
    cases e : s.th[owner i]? with
    | none => rfl
    | some th => exact hf th (List.mem_of_getElem? e)
  unfold Good phase at hg
  rw [ht] at hg
  exact hg

/-- The start: threads whose values go to different blocks. -/
theorem sinv_init {blocks : List (Block ℚ)} {jobs : List (List Write)} (hb : ∀ b ∈ blocks, BWF size b)
    (hown : ∀ (t : ℕ) (l : List Write), jobs[t]? = some l → ∀ w ∈ l,
      w.block < blocks.length ∧ w.off < size ∧ owner w.block = t) :
    SInv size blocks.length owner
      (fun i o => finalOf ((blocks[i]?).bind fun b => bval b o) ((jobs[owner i]?).getD []) i o)
      ⟨blocks, jobs.map fun l => ⟨.test, l⟩⟩ := by
  refine ⟨fun t th ht w hw => ?_, rfl, fun i b hbi => ?_⟩
  · simp only [List.getElem?_map, Option.map_eq_some_iff] at ht
    obtain ⟨l, hl, rfl⟩ := ht
    exact hown t l hl w hw
  · have e : (((jobs.map fun l => (⟨.test, l⟩ : SThread))[owner i]?).getD ⟨.test, []⟩) =
        ⟨.test, (jobs[owner i]?).getD []⟩ := by
      rw [List.getElem?_map]
      cases jobs[owner i]? <;> rfl
    simp only [e]
    have p : phase ⟨.test, (jobs[owner i]?).getD []⟩ i = .test := by
      unfold phase
      cases (jobs[owner i]?).getD [] with
      | nil => rfl
      | cons x l => simp
    unfold Good
    rw [p]
    refine ⟨hb b (List.mem_of_getElem? hbi), fun o _ => ?_⟩
    have hbi' : blocks[i]? = some b := hbi
    simp [hbi']

theorem finalOf_absent (v : Option ℚ) (i o : ℕ) : ∀ ws : List Write, (∀ w ∈ ws, ¬ (w.block = i ∧ w.off = o)) →
    finalOf v ws i o = v
  | [], _ => rfl
  | w :: l, h => by
    have := finalOf_absent v i o l fun x hx => h x (List.mem_cons_of_mem _ hx)
    unfold finalOf at this ⊢
    rw [List.foldl_cons, if_neg (h w (List.mem_cons_self ..)), this]

theorem finalOf_unique (v : Option ℚ) (i o : ℕ) (x : ℚ) : ∀ ws : List Write,
    (∀ w ∈ ws, w.block = i ∧ w.off = o → w.v = x) → (∃ w ∈ ws, w.block = i ∧ w.off = o) → finalOf v ws i o = some x := by
  have aux : ∀ ws : List Write, (∀ w ∈ ws, w.block = i ∧ w.off = o → w.v = x) → ∀ a : Option ℚ,
      (a = some x ∨ ∃ w ∈ ws, w.block = i ∧ w.off = o) → finalOf a ws i o = some x := by
    intro ws
    induction ws with
    | nil =>
      rintro _ a (h | ⟨w, hw, _⟩)
      · exact h
      · cases hw
    | cons w l ih =>
      intro h a ha
      unfold finalOf
      rw [List.foldl_cons]
      apply ih fun y hy => h y (List.mem_cons_of_mem _ hy)
      by_cases hc : w.block = i ∧ w.off = o
      · left; rw [if_pos hc, h w (List.mem_cons_self ..) hc]
      · rw [if_neg hc]
        rcases ha with ha | ⟨y, hy, hy'⟩
        · exact .inl ha
        · rcases List.mem_cons.1 hy with e | hy
          · subst e; exact absurd hy' hc
          · exact .inr ⟨y, hy, hy'⟩
  intro ws h1 h2
  exact aux ws h1 v (.inr h2)

end MipThreads
end F3D

import Verif.Props.Ogawa
import Mathlib.Tactic.Ring
import Mathlib.Tactic.Linarith
/-!
# How large an archive can get
-/

namespace F3D.Props
open F3D.Ogawa

/-! ## The size of archives -/

/-- Slots, parents and positions are bounded. -/
def SmallGroup (K len : Nat) (o : OGroup) : Prop :=
  o.kids.length ≤ K ∧ (∀ p i, o.parent = some (p, i) → i ≤ K) ∧ ∀ p, o.pos = some p → p ≤ len

def SmallGroups (K : Nat) (w : Writer) : Prop := ∀ o ∈ w.groups, SmallGroup K w.file.length o

/-- The bytes of data in a call. -/
def opBytes : Ogawa.Op → Nat
  | .addData _ bs => bs.length
  | _ => 0

theorem emit_len (w : Writer) (pos : Nat) (bs : List UInt8) :
    (w.emit pos bs).file.length = max w.file.length (pos + bs.length) := by
  simp only [Writer.emit, writeAt, List.length_append, List.length_take, List.length_replicate, List.length_drop]
  omega

theorem append_len (w : Writer) (bs : List UInt8) : (w.append bs).file.length = w.file.length + bs.length := by
  rw [Writer.append, emit_len]; omega

theorem SmallGroup.mono {K K' len len' : Nat} {o : OGroup} (h : SmallGroup K len o) (hK : K ≤ K') (hl : len ≤ len') :
    SmallGroup K' len' o :=
  ⟨by have := h.1; omega, fun p i e => by have := h.2.1 p i e; omega, fun p e => by have := h.2.2 p e; omega⟩

theorem small_modify {K len K' len' : Nat} {gs : List OGroup} (g : Nat) (f : OGroup → OGroup) (hK : K ≤ K') (hl : len ≤ len')
    (h : ∀ o ∈ gs, SmallGroup K len o) (hf : ∀ o, SmallGroup K len o → SmallGroup K' len' (f o)) :
    ∀ o ∈ gs.modify g f, SmallGroup K' len' o := by
  intro o ho
  obtain ⟨i, hi, e⟩ := List.getElem_of_mem ho
  rw [List.getElem_modify] at e
  rw [List.length_modify] at hi
  have hm : gs[i] ∈ gs := List.getElem_mem hi
  split at e
  · subst e; exact hf _ (h _ hm)
  · subst e; exact (h _ hm).mono hK hl

theorem small_push {K : Nat} {w : Writer} (h : SmallGroups K w) (g slot : Nat) : SmallGroups (K + 1) (w.pushKid g slot) := by
  refine small_modify g _ (by omega) (le_refl _) h fun o ho => ?_
  refine ⟨?_, fun p i e => by have := ho.2.1 p i e; omega, ho.2.2⟩
  simp only [List.length_append, List.length_cons, List.length_nil]
  have := ho.1
  omega

theorem small_up {K K' : Nat} {w : Writer} (h : SmallGroups K w) (hK : K ≤ K') : SmallGroups K' w :=
  fun o ho => (h o ho).mono hK (le_refl _)

theorem small_longer {K : Nat} {w w' : Writer} (h : SmallGroups K w) (hg : w'.groups = w.groups)
    (hl : w.file.length ≤ w'.file.length) : SmallGroups K w' :=
  fun o ho => (h o (hg ▸ ho)).mono (le_refl _) hl

theorem step_small (K : Nat) (w : Writer) (op : Ogawa.Op) (h : SmallGroups K w) : SmallGroups (K + 2) (w.step op) ∧
    w.file.length ≤ (w.step op).file.length ∧ (w.step op).file.length ≤ w.file.length + opBytes op + 16 * K + 40 := by
  have same : SmallGroups (K + 2) w ∧ w.file.length ≤ w.file.length ∧
      w.file.length ≤ w.file.length + opBytes op + 16 * K + 40 := ⟨small_up h (by omega), by omega, by omega⟩
  cases op with
  | addGroup g =>
    simp only [Writer.step, Writer.addGroup]
    split
    · refine ⟨?_, by exact le_refl _, by show w.file.length ≤ _; omega⟩
      intro o ho
      simp only [List.mem_append, List.mem_singleton] at ho
      rcases ho with ho | rfl
      · exact (small_up (small_push h g 0) (K' := K + 2) (by omega)) o ho
      · refine ⟨by simp, ?_, by simp⟩
        intro p i e
        simp only [Option.some.injEq, Prod.mk.injEq] at e
        rw [← e.2]
        split
        · rename_i o' ho'
          have := (h o' (List.mem_of_getElem? ho')).1
          omega
        · omega
    · exact same
  | addData g bs =>
    simp only [Writer.step, Writer.addData]
    split
    · split
      · exact ⟨small_push (small_push h g _) g _, by exact le_refl _, by show w.file.length ≤ _; omega⟩
      · have h1 := append_len w (le64 bs.length)
        have h2 := append_len (w.append (le64 bs.length)) bs
        rw [le64_length] at h1
        have h3 : SmallGroups K ((w.append (le64 bs.length)).append bs) := small_longer h rfl (by omega)
        refine ⟨small_up (small_push h3 g _) (by omega), ?_, ?_⟩
        · show w.file.length ≤ ((w.append (le64 bs.length)).append bs).file.length
          omega
        · show ((w.append (le64 bs.length)).append bs).file.length ≤ _
          simp only [opBytes]
          omega
    · exact same
  | addEmptyGroup g =>
    simp only [Writer.step, Writer.addEmptyGroup]
    split
    · exact ⟨small_up (small_push h g _) (by omega), by exact le_refl _, by show w.file.length ≤ _; omega⟩
    · exact same
  | addEmptyData g =>
    simp only [Writer.step, Writer.addEmptyData]
    split
    · exact ⟨small_up (small_push h g _) (by omega), by exact le_refl _, by show w.file.length ≤ _; omega⟩
    · exact same
  | close =>
    simp only [Writer.step, Writer.close]
    split
    · have := emit_len w 5 [255]
      have hl : w.file.length ≤ (w.emit 5 [255]).file.length := by omega
      refine ⟨small_up (small_longer h rfl hl) (by omega), hl, ?_⟩
      show (w.emit 5 [255]).file.length ≤ _
      simp only [List.length_cons, List.length_nil] at this
      omega
    · exact same
  | freeze g =>
    simp only [Writer.step, Writer.freeze]
    split
    · exact same
    · rename_i o ho
      have hk := (h o (List.mem_of_getElem? ho)).1
      split
      · exact same
      · -- the children
        have hw1 : ∀ w1, w1 = (if o.kids = [] then w else (w.append (le64 o.kids.length)).append (o.kids.flatMap le64)) →
            w1.groups = w.groups ∧ w.file.length ≤ w1.file.length ∧ w1.file.length ≤ w.file.length + 8 * K + 8 := by
          intro w1 e
          split at e
          · subst e; exact ⟨rfl, by omega, by omega⟩
          · subst e
            have h1 := append_len w (le64 o.kids.length)
            have h2 := append_len (w.append (le64 o.kids.length)) (o.kids.flatMap le64)
            rw [le64_length] at h1
            rw [flatMap_le64_length] at h2
            exact ⟨rfl, by omega, by omega⟩
        generalize hw : (if o.kids = [] then w else (w.append (le64 o.kids.length)).append (o.kids.flatMap le64)) = w1
        obtain ⟨g1, l1, l2⟩ := hw1 w1 hw.symm
        have hpos : ∀ pos, pos = (if o.kids = [] then 0 else w.file.length) → pos ≤ w.file.length := by
          intro pos e; split at e <;> omega
        generalize hp : (if o.kids = [] then 0 else w.file.length) = pos
        have hp' := hpos pos hp.symm
        have s1 : SmallGroups K w1 := small_longer h g1 l1
        have s2 : ∀ o ∈ w1.groups.modify g (fun o => { o with pos := some pos }), SmallGroup K w1.file.length o := by
          refine small_modify g _ (le_refl _) (le_refl _) s1 fun o ho => ⟨ho.1, ho.2.1, ?_⟩
          intro p e
          simp only [Option.some.injEq] at e
          omega
        let w2 : Writer := { w1 with groups := w1.groups.modify g (fun o => { o with pos := some pos }) }
        have s2' : SmallGroups K w2 := s2
        have l3 : w2.file.length = w1.file.length := rfl
        split
        · have h7 := emit_len w2 8 (le64 pos)
          rw [le64_length] at h7
          have h8 : SmallGroups K (w2.emit 8 (le64 pos)) := small_longer s2' rfl (by omega)
          exact ⟨small_up h8 (by omega), by show _ ≤ (w2.emit 8 (le64 pos)).file.length; omega,
            by show (w2.emit 8 (le64 pos)).file.length ≤ _; omega⟩
        · rename_i p i hpar
          have hi := (h o (List.mem_of_getElem? ho)).2.1 p i hpar
          have key : ∀ w3 : Writer, SmallGroups K w3 → w.file.length ≤ w3.file.length →
              w3.file.length ≤ w.file.length + 16 * K + 24 → SmallGroups (K + 2)
                ({ w3 with groups := w3.groups.modify p (fun o => { o with kids := o.kids.set i pos }) } : Writer) ∧
              w.file.length ≤ w3.file.length ∧ w3.file.length ≤ w.file.length + opBytes (.freeze g) + 16 * K + 40 := by
            intro w3 h3 h4 h5
            refine ⟨?_, h4, by omega⟩
            refine small_modify p _ (by omega) (le_refl _) h3 fun o ho => ⟨?_, fun p i e => by have := ho.2.1 p i e; omega, ho.2.2⟩
            simp only [List.length_set]
            have := ho.1
            omega
          split
          · rename_i op hop
            split
            · rename_i pp hpp
              have h6 := (s2' op (List.mem_of_getElem? hop)).2.2 pp hpp
              have h7 := emit_len w2 (pp + (i + 1) * 8) (le64 pos)
              rw [le64_length] at h7
              exact key (w2.emit (pp + (i + 1) * 8) (le64 pos)) (small_longer s2' rfl (by omega)) (by omega) (by omega)
            · exact key w2 s2' (by omega) (by omega)
          · exact key w2 s2' (by omega) (by omega)

/-- An archive is not larger than this: `total` bytes of data, `n` calls. -/
theorem run_small (ops : List Ogawa.Op) : ∀ (w : Writer) (K : Nat), SmallGroups K w →
    (w.run ops).file.length ≤ w.file.length + (ops.map opBytes).sum + ops.length * (16 * (K + 2 * ops.length) + 40) := by
  induction ops with
  | nil => intro w K _; simp [Writer.run]
  | cons op ops ih =>
    intro w K h
    obtain ⟨h1, h2, h3⟩ := step_small K w op h
    have := ih (w.step op) (K + 2) h1
    have e : w.run (op :: ops) = (w.step op).run ops := rfl
    rw [e]
    simp only [List.map_cons, List.sum_cons, List.length_cons]
    have e2 : ops.length * (16 * (K + 2 + 2 * ops.length) + 40) + (16 * K + 40) ≤
      (ops.length + 1) * (16 * (K + 2 * (ops.length + 1)) + 40) := by
      have : K + 2 + 2 * ops.length = K + 2 * (ops.length + 1) := by ring
      rw [this]
      nlinarith
    omega

theorem archive_small (ops : List Ogawa.Op) :
    (Writer.init.run ops).file.length ≤ 16 + (ops.map opBytes).sum + ops.length * (32 * ops.length + 40) := by
  have h : SmallGroups 0 Writer.init := by
    intro o ho
    simp only [Writer.init, List.mem_singleton] at ho
    subst ho
    exact ⟨by simp, by simp, by simp⟩
  have := run_small ops Writer.init 0 h
  have e : Writer.init.file.length = 16 := by decide
  rw [e] at this
  have e2 : ops.length * (16 * (0 + 2 * ops.length) + 40) = ops.length * (32 * ops.length + 40) := by ring
  omega

end F3D.Props

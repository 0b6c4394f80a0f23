import Verif.Model.FileRefs
import Mathlib.Data.List.Basic
import Mathlib.Data.List.Perm.Basic
import Mathlib.Data.List.Nodup
import Mathlib.Algebra.BigOperators.Group.List.Basic
import Mathlib.Tactic.Ring
import Mathlib.Tactic.ByContra

/-!
# C103: references of dynamically loaded fields are found by type and number
-/

namespace F3D.Props
open FileRefs

variable {R : Type}

/-! ## Specification -/

/-- Registers references, one after the other; gives the numbers. -/
def registerAll (s : Refs R) : List (VT × R) → List Nat × Refs R
  | [] => ([], s)
  | (t, r) :: l =>
    let a := s.append t r
    let b := registerAll a.2 l
    (a.1 :: b.1, b.2)

/-- Block `b` of the reference with type and number is in memory. -/
def BlockIn (m : Mgr) (t : VT) (i b : Nat) : Prop := ∃ r, m.refs.ref t i = some r ∧ r.loaded[b]? = some true

/-- The size of the blocks of a reference. -/
def bytesAt (m : Mgr) (t : VT) (i : Nat) : Nat := ((m.refs.ref t i).map (·.bytes)).getD 0

/-- The manager after any calls. -/
def AfterCalls (m : Mgr) : Prop := ∃ os, run Mgr.new os = some m

/-! ## The tables -/

/-- The table of a type. -/
def tab (s : Refs R) : VT → List R
  | .half => s.h
  | .vecHalf => s.vh
  | .float => s.f
  | .vecFloat => s.vf
  | .double => s.d
  | .vecDouble => s.vd

theorem ref_tab (s : Refs R) (t : VT) (i : Nat) : s.ref t i = (tab s t)[i]? := by cases t <;> rfl

theorem numRefs_tab (s : Refs R) (t : VT) : s.numRefs t = (tab s t).length := by cases t <;> rfl

theorem append_fst (s : Refs R) (t : VT) (r : R) : (s.append t r).1 = (tab s t).length := by
  cases t <;> simp [Refs.append, tab]

theorem append_tab (s : Refs R) (t t' : VT) (r : R) :
    tab (s.append t r).2 t' = tab s t' ++ (if t = t' then [r] else []) := by
  cases t <;> cases t' <;> simp [Refs.append, tab]

theorem modify_tab (s : Refs R) (t t' : VT) (i : Nat) (g : R → R) :
    tab (s.modify t i g) t' = if t = t' then (tab s t').modify i g else tab s t' := by
  cases t <;> cases t' <;> simp [Refs.modify, tab]

theorem modify_ref (s : Refs R) (t t' : VT) (i j : Nat) (g : R → R) :
    (s.modify t i g).ref t' j = if t = t' ∧ i = j then (s.ref t' j).map g else s.ref t' j := by
  rw [ref_tab, modify_tab, ref_tab]
  by_cases ht : t = t'
  · subst ht
    rw [if_pos rfl, List.getElem?_modify]
    by_cases hi : i = j
    · subst hi; simp
    · simp [hi]
  · simp [ht]

theorem total_append (s : Refs R) (t : VT) (r : R) (g : R → Nat) : (s.append t r).2.total g = s.total g + g r := by
  cases t <;> simp [Refs.append, Refs.total] <;> omega

theorem registerAll_tab (t : VT) : ∀ (l : List (VT × R)) (s : Refs R),
    tab (registerAll s l).2 t = tab s t ++ (l.filter fun q => q.1 = t).map (·.2)
  | [], s => by simp [registerAll]
  | (t', r) :: l, s => by
    show tab (registerAll (s.append t' r).2 l).2 t = _
    rw [registerAll_tab t l, append_tab]
    by_cases h : t' = t
    · simp [h]
    · simp [h]

theorem registerAll_length : ∀ (l : List (VT × R)) (s : Refs R), (registerAll s l).1.length = l.length
  | [], _ => rfl
  | (t, r) :: l, s => by simp [registerAll, registerAll_length l]

theorem registerAll_id : ∀ (l : List (VT × R)) (s : Refs R) (k : Nat) (t : VT) (r : R), l[k]? = some (t, r) →
    (registerAll s l).1[k]? = some ((tab s t).length + ((l.take k).filter fun q => q.1 = t).length)
  | [], _, k, t, r, h => by simp at h
  | (t', r') :: l, s, 0, t, r, h => by
    simp only [List.getElem?_cons_zero, Option.some.injEq, Prod.mk.injEq] at h
    simp [registerAll, append_fst, h.1]
  | (t', r') :: l, s, k + 1, t, r, h => by
    simp only [List.getElem?_cons_succ] at h
    show (registerAll (s.append t' r').2 l).1[k]? = _
    rw [registerAll_id l _ k t r h, append_tab]
    by_cases e : t' = t
    · simp [e]; omega
    · simp [e]

theorem registerAll_total (g : R → Nat) : ∀ (l : List (VT × R)) (s : Refs R),
    (registerAll s l).2.total g = s.total g + (l.map fun q => g q.2).sum
  | [], s => by simp [registerAll]
  | (t, r) :: l, s => by
    show (registerAll (s.append t r).2 l).2.total g = _
    rw [registerAll_total g l, total_append]
    simp; omega

theorem memSize_total (s : Refs R) (ptr : Nat) (mem : R → Nat) : s.memSize ptr mem = s.total (fun r => ptr + mem r) := by
  have key : ∀ l : List R, (l.map fun r => ptr + mem r).sum = l.length * ptr + (l.map mem).sum := by
    intro l
    induction l with
    | nil => simp
    | cons a l ih => simp [ih, Nat.add_mul]; omega
  simp only [Refs.memSize, Refs.total, key]
  omega

theorem filter_take_get (p : R → Bool) : ∀ (l : List R) (k : Nat) (a : R), l[k]? = some a → p a = true →
    (l.filter p)[((l.take k).filter p).length]? = some a
  | [], k, a, h, _ => by simp at h
  | x :: l, 0, a, h, hp => by
    simp only [List.getElem?_cons_zero, Option.some.injEq] at h
    subst h
    simp [hp]
  | x :: l, k + 1, a, h, hp => by
    simp only [List.getElem?_cons_succ] at h
    have ih := filter_take_get p l k a h hp
    by_cases hx : p x = true
    · simp [hx, ih]
    · simp [hx, ih]

theorem filter_take_lt (p : R → Bool) : ∀ (l : List R) (k k' : Nat) (a : R), l[k]? = some a → p a = true → k < k' →
    ((l.take k).filter p).length < ((l.take k').filter p).length
  | [], k, k', a, h, _, _ => by simp at h
  | x :: l, 0, k' + 1, a, h, hp, _ => by
    simp only [List.getElem?_cons_zero, Option.some.injEq] at h
    subst h
    simp [hp]
  | x :: l, k + 1, k' + 1, a, h, hp, hk => by
    simp only [List.getElem?_cons_succ] at h
    have ih := filter_take_lt p l k k' a h hp (by omega)
    by_cases hx : p x = true
    · simp [hx, ih]
    · simp [hx, ih]

/-- **C103, numbers of references.** References of any types are registered in any order. Each is found by its type and the
number it was given, whatever was registered since; two references of one type have different numbers; the counts for each
type, the totals and the memory are those of all that were registered. -/
theorem C103_numbers (l : List (VT × R)) :
    (registerAll Refs.empty l).1.length = l.length ∧
    (∀ (k : Nat) (t : VT) (r : R), l[k]? = some (t, r) → ∃ i, (registerAll Refs.empty l).1[k]? = some i ∧
      (registerAll Refs.empty l).2.ref t i = some r ∧ i < (registerAll Refs.empty l).2.numRefs t) ∧
    (∀ (k k' : Nat) (t : VT) (r r' : R) (i : Nat), l[k]? = some (t, r) → l[k']? = some (t, r') →
      (registerAll Refs.empty l).1[k]? = some i → (registerAll Refs.empty l).1[k']? = some i → k = k') ∧
    (∀ t, (registerAll Refs.empty l).2.numRefs t = (l.filter fun q => q.1 = t).length) ∧
    (∀ g : R → Nat, (registerAll Refs.empty l).2.total g = (l.map fun q => g q.2).sum) ∧
    (∀ (ptr : Nat) (mem : R → Nat), (registerAll Refs.empty l).2.memSize ptr mem = (l.map fun q => ptr + mem q.2).sum) := by
  have h0 : ∀ t, tab (Refs.empty : Refs R) t = [] := by intro t; cases t <;> rfl
  have hc : ∀ t, (registerAll Refs.empty l).2.numRefs t = (l.filter fun q => q.1 = t).length := by
    intro t
    rw [numRefs_tab, registerAll_tab, h0]
    simp
  refine ⟨registerAll_length _ _, ?_, ?_, hc, ?_, ?_⟩
  · intro k t r h
    refine ⟨_, registerAll_id l _ k t r h, ?_⟩
    have hr : (registerAll Refs.empty l).2.ref t ((tab (Refs.empty : Refs R) t).length +
        ((l.take k).filter fun q => q.1 = t).length) = some r := by
      rw [ref_tab, registerAll_tab, h0]
      simp only [List.length_nil, Nat.zero_add, List.nil_append, List.getElem?_map]
      rw [filter_take_get _ l k (t, r) h (by simp)]
      rfl
    refine ⟨hr, ?_⟩
    rw [numRefs_tab]
    rw [ref_tab] at hr
    exact (List.getElem?_eq_some_iff.1 hr).1
  · intro k k' t r r' i h h' e e'
    rw [registerAll_id l _ k t r h] at e
    rw [registerAll_id l _ k' t r' h', ← e] at e'
    simp only [Option.some.injEq] at e'
    rcases Nat.lt_trichotomy k k' with lt | eq | gt
    · have := filter_take_lt (fun q : VT × R => decide (q.1 = t)) l k k' (t, r) h (by simp) lt
      omega
    · exact eq
    · have := filter_take_lt (fun q : VT × R => decide (q.1 = t)) l k' k (t, r') h' (by simp) gt
      omega
  · intro g
    rw [registerAll_total]
    simp [Refs.empty, Refs.total]
  · intro ptr mem
    rw [memSize_total, registerAll_total]
    simp [Refs.empty, Refs.total]

/-- Two float references, a vector one between them. -/
example : (registerAll Refs.empty [(VT.float, 10), (VT.vecFloat, 20), (VT.float, 30)]).1 = [0, 0, 1] ∧
    (registerAll Refs.empty [(VT.float, 10), (VT.vecFloat, 20), (VT.float, 30)]).2.ref .float 1 = some 30 ∧
    (registerAll Refs.empty [(VT.float, 10), (VT.vecFloat, 20), (VT.float, 30)]).2.ref .vecFloat 0 = some 20 := by decide

/-! ## Blocks -/

theorem dispatch_typeEnum (t : VT) : dispatch (typeEnum t) = some t := by cases t <;> rfl

theorem typeEnum_inj {t t' : VT} (h : typeEnum t = typeEnum t') : t = t' := by
  have := congrArg dispatch h
  rw [dispatch_typeEnum, dispatch_typeEnum] at this
  exact Option.some.inj this

theorem dispatch_some {d : DT} {t : VT} (h : dispatch d = some t) : d = typeEnum t := by
  cases d <;> simp [dispatch] at h <;> subst h <;> rfl

def LoadedIn (s : Refs Ref) (t : VT) (i b : Nat) : Prop := ∃ r, s.ref t i = some r ∧ r.loaded[b]? = some true

def bytesOf (s : Refs Ref) (cb : CB) : Int :=
  match dispatch cb.type with
  | some t => (((s.ref t cb.ref).map (·.bytes)).getD 0 : Nat)
  | none => 0

/-- The list has the loaded blocks, each once, with the types of their references. -/
structure RefsAgree (s : Refs Ref) (l : List CB) (mem : Int) : Prop where
  nodup : l.Nodup
  typed : ∀ cb ∈ l, ∃ t, cb.type = typeEnum t
  loaded : ∀ t i b, (⟨typeEnum t, i, b⟩ : CB) ∈ l ↔ LoadedIn s t i b
  mem : mem = (l.map (bytesOf s)).sum

theorem bytesOf_key (s : Refs Ref) (t : VT) (i b : Nat) :
    bytesOf s ⟨typeEnum t, i, b⟩ = (((s.ref t i).map (·.bytes)).getD 0 : Nat) := by
  simp [bytesOf, dispatch_typeEnum]

/-- A change of what is loaded in one reference. -/
theorem modify_bytes (s : Refs Ref) (t : VT) (i : Nat) (g : Ref → Ref) (hg : ∀ r, (g r).bytes = r.bytes) (cb : CB) :
    bytesOf (s.modify t i g) cb = bytesOf s cb := by
  unfold bytesOf
  split
  · rename_i t' _
    rw [modify_ref]
    split
    · cases s.ref t' cb.ref <;> simp [hg]
    · rfl
  · rfl

theorem set_bytes (s : Refs Ref) (t : VT) (i b : Nat) (v : Bool) (cb : CB) :
    bytesOf (s.modify t i fun r => { r with loaded := r.loaded.set b v }) cb = bytesOf s cb :=
  modify_bytes s t i (fun r => { r with loaded := r.loaded.set b v }) (fun _ => rfl) cb

theorem clear_bytes (s : Refs Ref) (t : VT) (i : Nat) (cb : CB) :
    bytesOf (s.modify t i fun r => { r with stored := r.stored.map fun _ => false, loaded := [] }) cb = bytesOf s cb :=
  modify_bytes s t i (fun r => { r with stored := r.stored.map fun _ => false, loaded := [] }) (fun _ => rfl) cb

theorem set_get (l : List Bool) (b c : Nat) (v : Bool) (hb : b < l.length) :
    (l.set b v)[c]? = if b = c then some v else l[c]? := by
  rw [List.getElem?_set]
  by_cases h : b = c
  · subst h; simp [hb]
  · simp [h]

theorem modify_loaded (s : Refs Ref) (t : VT) (i b : Nat) (v : Bool) (r : Ref) (hr : s.ref t i = some r)
    (hb : b < r.loaded.length) (t' : VT) (j c : Nat) :
    LoadedIn (s.modify t i fun r => { r with loaded := r.loaded.set b v }) t' j c ↔
      if t = t' ∧ i = j ∧ b = c then v = true else LoadedIn s t' j c := by
  unfold LoadedIn
  rw [modify_ref]
  by_cases h : t = t' ∧ i = j
  · obtain ⟨rfl, rfl⟩ := h
    simp only [true_and, and_self, if_true, hr, Option.map_some, Option.some.injEq, exists_eq_left']
    rw [set_get _ _ _ _ hb]
    by_cases hc : b = c
    · simp [hc]
    · simp [hc]
  · rw [if_neg h, if_neg (fun x => h ⟨x.1, x.2.1⟩)]

theorem loaded_lt {l : List Bool} {b : Nat} {v : Bool} (h : l[b]? = some v) : b < l.length := (List.getElem?_eq_some_iff.1 h).1

/-- A block is unloaded through its type. -/
theorem unload_agree {m : Mgr} {cb : CB} {l : List CB} (A : RefsAgree m.refs (cb :: l) m.memUse) :
    ∃ t m', dispatch cb.type = some t ∧ cb = ⟨typeEnum t, cb.ref, cb.block⟩ ∧ unload m t cb = some m' ∧ m'.list = m.list ∧
      RefsAgree m'.refs l m'.memUse ∧
      m'.refs = m.refs.modify t cb.ref (fun r => { r with loaded := r.loaded.set cb.block false }) := by
  obtain ⟨t, ht⟩ := A.typed cb (by simp)
  have hcb : cb = ⟨typeEnum t, cb.ref, cb.block⟩ := by cases cb; simp only at ht; subst ht; rfl
  have hl : LoadedIn m.refs t cb.ref cb.block := (A.loaded t cb.ref cb.block).1 (by rw [← hcb]; simp)
  obtain ⟨r, hr, hb⟩ := hl
  have hlt := loaded_lt hb
  refine ⟨t, { m with refs := m.refs.modify t cb.ref fun r => { r with loaded := r.loaded.set cb.block false },
                      memUse := m.memUse - r.bytes }, by rw [ht, dispatch_typeEnum], hcb, ?_, rfl, ?_, rfl⟩
  · unfold unload
    rw [hr]
    simp only
    rw [if_pos hlt]
  · have hn := List.nodup_cons.1 A.nodup
    refine ⟨hn.2, fun x hx => A.typed x (by simp [hx]), ?_, ?_⟩
    · intro t' j c
      rw [modify_loaded _ _ _ _ _ r hr hlt]
      by_cases h : t = t' ∧ cb.ref = j ∧ cb.block = c
      · rw [if_pos h]
        obtain ⟨rfl, rfl, rfl⟩ := h
        rw [← hcb]
        simp [hn.1]
      · rw [if_neg h, ← A.loaded t' j c, List.mem_cons]
        constructor
        · exact .inr
        · rintro (e | e)
          · exfalso
            rw [hcb] at e
            simp only [CB.mk.injEq] at e
            exact h ⟨(typeEnum_inj e.1).symm, e.2.1.symm, e.2.2.symm⟩
          · exact e
    · have e : (l.map (bytesOf (m.refs.modify t cb.ref fun r => { r with loaded := r.loaded.set cb.block false }))) =
          l.map (bytesOf m.refs) := List.map_congr_left fun x _ => set_bytes _ _ _ _ _ x
      show m.memUse - r.bytes = _
      rw [e, A.mem, List.map_cons, List.sum_cons]
      have : bytesOf m.refs cb = r.bytes := by
        rw [hcb, bytesOf_key, hr]
        rfl
      rw [this]
      ring

theorem agree_perm {s : Refs Ref} {l l' : List CB} {mem : Int} (h : l.Perm l') (A : RefsAgree s l mem) : RefsAgree s l' mem :=
  ⟨h.nodup_iff.1 A.nodup, fun cb hc => A.typed cb (h.mem_iff.2 hc), fun t i b => by rw [← h.mem_iff]; exact A.loaded t i b,
    by rw [A.mem]; exact (h.map _).sum_eq⟩

/-- Nothing but the flags of blocks differs. -/
def SameRefs (s s' : Refs Ref) : Prop := ∀ t i, (s'.ref t i).map (fun r => (r.bytes, r.stored, r.loaded.length)) =
  (s.ref t i).map (fun r => (r.bytes, r.stored, r.loaded.length))

theorem modify_same (s : Refs Ref) (t : VT) (i b : Nat) (v : Bool) :
    SameRefs s (s.modify t i fun r => { r with loaded := r.loaded.set b v }) := by
  intro t' j
  rw [modify_ref]
  split
  · cases s.ref t' j <;> simp
  · rfl

theorem flushFrom_agree : ∀ (l : List CB) (m : Mgr), RefsAgree m.refs l m.memUse →
    ∃ m', flushFrom m l = some m' ∧ m'.list = [] ∧ RefsAgree m'.refs [] m'.memUse ∧ SameRefs m.refs m'.refs
  | [], m, A => ⟨_, rfl, rfl, A, fun _ _ => rfl⟩
  | cb :: l, m, A => by
    obtain ⟨t, m', hd, hcb, hu, hl, A', hm⟩ := unload_agree A
    obtain ⟨m'', h1, h2, h3, h4⟩ := flushFrom_agree l m' A'
    refine ⟨m'', ?_, h2, h3, fun t' i => (h4 t' i).trans ?_⟩
    · simp [flushFrom, hd, hu, h1]
    · rw [hm]
      exact modify_same _ _ _ _ _ t' i

theorem eraseIdx_perm {l : List CB} {p : Nat} {cb : CB} (h : l[p]? = some cb) : l.Perm (cb :: l.eraseIdx p) := by
  obtain ⟨hp, rfl⟩ := List.getElem?_eq_some_iff.1 h
  exact (List.getElem_cons_eraseIdx_perm hp).symm

theorem step_agree {m m' : Mgr} (A : RefsAgree m.refs m.list m.memUse) (o : Op) (h : step m o = some m') :
    RefsAgree m'.refs m'.list m'.memUse := by
  cases o with
  | register t bytes stored =>
    simp only [step, Option.some.injEq] at h
    subst h
    have href : ∀ t' i r, m.refs.ref t' i = some r → (register m t bytes stored).2.refs.ref t' i = some r := by
      intro t' i r hr
      show (m.refs.append t _).2.ref t' i = _
      rw [ref_tab] at hr ⊢
      rw [append_tab, List.getElem?_append_left (List.getElem?_eq_some_iff.1 hr).1]
      exact hr
    have hload : ∀ t' i b, LoadedIn (register m t bytes stored).2.refs t' i b ↔ LoadedIn m.refs t' i b := by
      intro t' i b
      constructor
      · rintro ⟨r, hr, hb⟩
        refine ⟨r, ?_, hb⟩
        change (m.refs.append t _).2.ref t' i = _ at hr
        rw [ref_tab, append_tab] at hr
        rw [ref_tab]
        by_cases hi : i < (tab m.refs t').length
        · rwa [List.getElem?_append_left hi] at hr
        · exfalso
          rw [List.getElem?_append_right (by omega)] at hr
          split at hr
          · rw [List.getElem?_singleton] at hr
            split at hr
            · simp only [Option.some.injEq] at hr
              subst hr
              simp only [List.getElem?_map, Option.map_eq_some_iff] at hb
              obtain ⟨_, _, hb⟩ := hb
              cases hb
            · simp at hr
          · simp at hr
      · rintro ⟨r, hr, hb⟩
        exact ⟨r, href t' i r hr, hb⟩
    refine ⟨A.nodup, A.typed, fun t' i b => (A.loaded t' i b).trans (hload t' i b).symm, ?_⟩
    show m.memUse = _
    rw [A.mem]
    congr 1
    apply List.map_congr_left
    intro cb hcb
    obtain ⟨t', ht⟩ := A.typed cb hcb
    have e : cb = ⟨typeEnum t', cb.ref, cb.block⟩ := by cases cb; simp only at ht; subst ht; rfl
    obtain ⟨r, hr, _⟩ := (A.loaded t' cb.ref cb.block).1 (by rw [← e]; exact hcb)
    rw [e, bytesOf_key, bytesOf_key, hr, href _ _ _ hr]
  | activate t i b p =>
    simp only [step, activate] at h
    cases hr : m.refs.ref t i with
    | none => rw [hr] at h; simp at h
    | some r =>
      rw [hr] at h
      simp only at h
      split at h
      · rename_i hs hl
        simp only [Option.some.injEq] at h
        subst h
        have hlt := loaded_lt hl
        have hperm : (⟨typeEnum t, i, b⟩ :: m.list).Perm (m.list.take p ++ ⟨typeEnum t, i, b⟩ :: m.list.drop p) := by
          refine (List.Perm.cons _ ?_).trans List.perm_middle.symm
          rw [List.take_append_drop]
        refine agree_perm hperm ⟨?_, ?_, ?_, ?_⟩
        · refine List.nodup_cons.2 ⟨fun hc => ?_, A.nodup⟩
          obtain ⟨r', hr', hb'⟩ := (A.loaded t i b).1 hc
          rw [hr] at hr'
          cases hr'
          rw [hl] at hb'
          cases hb'
        · intro cb hc
          rcases List.mem_cons.1 hc with rfl | hc
          · exact ⟨t, rfl⟩
          · exact A.typed cb hc
        · intro t' j c
          rw [modify_loaded _ _ _ _ _ r hr hlt, List.mem_cons]
          by_cases hk : t = t' ∧ i = j ∧ b = c
          · obtain ⟨rfl, rfl, rfl⟩ := hk
            simp
          · rw [if_neg hk, ← A.loaded t' j c]
            constructor
            · rintro (e | e)
              · simp only [CB.mk.injEq] at e
                exact absurd ⟨(typeEnum_inj e.1).symm, e.2.1.symm, e.2.2.symm⟩ hk
              · exact e
            · exact .inr
        · have e : (m.list.map (bytesOf (m.refs.modify t i fun r => { r with loaded := r.loaded.set b true }))) =
              m.list.map (bytesOf m.refs) := List.map_congr_left fun x _ => set_bytes _ _ _ _ _ x
          show m.memUse + r.bytes = _
          rw [List.map_cons, List.sum_cons, e, set_bytes, bytesOf_key, hr, A.mem]
          simp only [Option.map_some, Option.getD_some]
          ring
      · simp only [Option.some.injEq] at h
        subst h
        exact A
      · simp at h
  | evict p =>
    simp only [step, evict] at h
    split at h
    · simp only [Option.some.injEq] at h; subst h; exact A
    · rename_i cb hp
      have A' := agree_perm (eraseIdx_perm hp) A
      obtain ⟨t, m1, hd, _, hu, hl, A1, _⟩ := unload_agree A'
      rw [hd] at h
      simp only [hu, Option.map_some, Option.some.injEq] at h
      subst h
      rw [hl]
      exact A1
  | flush =>
    obtain ⟨m1, h1, h2, h3, _⟩ := flushFrom_agree m.list m A
    simp only [step, flush, h1, Option.some.injEq] at h
    subst h
    rw [h2]
    exact h3
  | remove t i =>
    simp only [step, remove] at h
    cases hr : m.refs.ref t i with
    | none => rw [hr] at h; simp at h
    | some r =>
      rw [hr] at h
      simp only [Option.some.injEq] at h
      subst h
      let q : CB → Bool := fun cb => decide (cb.type = typeEnum t ∧ cb.ref = i)
      have hq : (fun cb : CB => decide ¬ (cb.type = typeEnum t ∧ cb.ref = i)) = fun cb => !q cb := by
        funext cb; simp [q]
      refine ⟨A.nodup.filter _, fun cb hc => A.typed cb (List.mem_filter.1 hc).1, ?_, ?_⟩
      · intro t' j c
        rw [List.mem_filter, A.loaded]
        unfold LoadedIn
        rw [modify_ref]
        by_cases hk : t = t' ∧ i = j
        · obtain ⟨rfl, rfl⟩ := hk
          simp [hr]
        · rw [if_neg hk]
          constructor
          · exact fun x => x.1
          · refine fun x => ⟨x, ?_⟩
            simp only [decide_eq_true_eq]
            exact fun y => hk ⟨(typeEnum_inj y.1).symm, y.2.symm⟩
      · have e : ∀ l : List CB, l.map (bytesOf (m.refs.modify t i fun r =>
            { r with stored := r.stored.map fun _ => false, loaded := [] })) = l.map (bytesOf m.refs) :=
          fun l => List.map_congr_left fun x _ => clear_bytes _ _ _ x
        rw [e]
        have key : ∀ l : List CB, (l.map (bytesOf m.refs)).sum =
            (((l.filter q).map fun _ => r.bytes).sum : Nat) + ((l.filter fun cb => !q cb).map (bytesOf m.refs)).sum := by
          intro l
          induction l with
          | nil => simp
          | cons cb l ih =>
            rw [List.map_cons, List.sum_cons, ih]
            by_cases hc : q cb = true
            · have hb : bytesOf m.refs cb = r.bytes := by
                have : cb.type = typeEnum t ∧ cb.ref = i := by simpa [q] using hc
                have e : cb = ⟨typeEnum t, i, cb.block⟩ := by
                  cases cb; obtain ⟨h1, h2⟩ := this; simp only at h1 h2; subst h1; subst h2; rfl
                rw [e, bytesOf_key, hr]
                rfl
              simp only [List.filter_cons, hc, if_true, Bool.not_true, Bool.false_eq_true, if_false, List.map_cons,
                List.sum_cons, hb]
              push_cast
              ring
            · have hc' : q cb = false := by simpa using hc
              simp only [List.filter_cons, hc', if_false, Bool.not_false, if_true, List.map_cons, List.sum_cons,
                Bool.false_eq_true]
              ring
        show m.memUse - (((m.list.filter q).map fun _ => r.bytes).sum : Nat) = _
        rw [hq, A.mem, key m.list]
        ring

theorem agree_after {m : Mgr} (h : AfterCalls m) : RefsAgree m.refs m.list m.memUse := by
  obtain ⟨os, h⟩ := h
  have key : ∀ (os : List Op) (m0 : Mgr), RefsAgree m0.refs m0.list m0.memUse → run m0 os = some m →
      RefsAgree m.refs m.list m.memUse := by
    intro os
    induction os with
    | nil => intro m0 A h; simp only [run, Option.some.injEq] at h; subst h; exact A
    | cons o os ih =>
      intro m0 A h
      simp only [run] at h
      cases hs : step m0 o with
      | none => rw [hs] at h; simp at h
      | some m1 =>
        rw [hs] at h
        exact ih m1 (step_agree A o hs) h
  refine key os Mgr.new ⟨List.nodup_nil, by simp [Mgr.new], fun t i b => ?_, by simp [Mgr.new]⟩ h
  simp only [Mgr.new, List.not_mem_nil, false_iff]
  rintro ⟨r, hr, _⟩
  cases t <;> simp [Refs.empty, Refs.ref] at hr

/-- **C103, memory.** After any calls for references of all types, the amount of memory in use is that of the blocks in
memory, each counted once with the size of the blocks of its reference. -/
theorem C103_memory (m : Mgr) (h : AfterCalls m) : ∃ keys : List (VT × Nat × Nat), keys.Nodup ∧
    (∀ t i b, (t, i, b) ∈ keys ↔ BlockIn m t i b) ∧ m.memUse = (keys.map fun k => (bytesAt m k.1 k.2.1 : Int)).sum := by
  have A := agree_after h
  let f : CB → VT × Nat × Nat := fun cb => ((dispatch cb.type).getD .half, cb.ref, cb.block)
  have hf : ∀ t i b, f ⟨typeEnum t, i, b⟩ = (t, i, b) := by intro t i b; simp [f, dispatch_typeEnum]
  have hk : ∀ cb ∈ m.list, ∃ t, cb = ⟨typeEnum t, cb.ref, cb.block⟩ := by
    intro cb hcb
    obtain ⟨t, ht⟩ := A.typed cb hcb
    exact ⟨t, by cases cb; simp only at ht; subst ht; rfl⟩
  refine ⟨m.list.map f, ?_, ?_, ?_⟩
  · refine List.Nodup.map_on ?_ A.nodup
    intro x hx y hy e
    obtain ⟨t, ex⟩ := hk x hx
    obtain ⟨t', ey⟩ := hk y hy
    rw [ex, ey, hf, hf] at e
    simp only [Prod.mk.injEq] at e
    rw [ex, ey, e.1, e.2.1, e.2.2]
  · intro t i b
    rw [show BlockIn m t i b ↔ LoadedIn m.refs t i b from Iff.rfl, ← A.loaded t i b, List.mem_map]
    constructor
    · rintro ⟨cb, hcb, e⟩
      obtain ⟨t', ex⟩ := hk cb hcb
      rw [ex, hf] at e
      simp only [Prod.mk.injEq] at e
      rw [← e.1, ← e.2.1, ← e.2.2, ← ex]
      exact hcb
    · intro hcb
      exact ⟨_, hcb, hf t i b⟩
  · rw [A.mem, List.map_map]
    congr 1
    apply List.map_congr_left
    intro cb hcb
    obtain ⟨t, ex⟩ := hk cb hcb
    rw [ex]
    simp only [Function.comp, hf, bytesOf_key, bytesAt]

/-- **C103, flushing.** After any calls, `flushCache` ends, whatever the types of the blocks; then no block of any
reference is in memory and no memory is in use; the references are there as before. -/
theorem C103_flush (m : Mgr) (h : AfterCalls m) : ∃ m', step m .flush = some m' ∧ m'.memUse = 0 ∧
    (∀ t i b, ¬ BlockIn m' t i b) ∧
    ∀ t i, (m'.refs.ref t i).map (fun r => (r.bytes, r.stored, r.loaded.length)) =
      (m.refs.ref t i).map (fun r => (r.bytes, r.stored, r.loaded.length)) := by
  obtain ⟨m', h1, _, h3, h4⟩ := flushFrom_agree m.list m (agree_after h)
  refine ⟨m', h1, h3.mem, fun t i b hb => ?_, h4⟩
  have := (h3.loaded t i b).2 hb
  simp at this

/-- **C103, loading.** A block that is in the file and not in memory: it is in memory afterwards, no other block of any
reference of any type changes, and the memory in use grows by its size. -/
theorem C103_activate (m : Mgr) (t : VT) (i b p : Nat) (r : Ref) (hr : m.refs.ref t i = some r)
    (hs : r.stored[b]? = some true) (hl : r.loaded[b]? = some false) :
    ∃ m', step m (.activate t i b p) = some m' ∧ m'.memUse = m.memUse + bytesAt m t i ∧
      ∀ t' j c, BlockIn m' t' j c ↔ (t' = t ∧ j = i ∧ c = b) ∨ BlockIn m t' j c := by
  refine ⟨_, by simp only [step, activate, hr, hs, hl]; rfl, by simp [bytesAt, hr], fun t' j c => ?_⟩
  refine (modify_loaded m.refs t i b true r hr (loaded_lt hl) t' j c).trans ?_
  by_cases hk : t = t' ∧ i = j ∧ b = c
  · rw [if_pos hk]
    simp [hk]
  · rw [if_neg hk]
    constructor
    · exact .inr
    · rintro (e | e)
      · exact absurd ⟨e.1.symm, e.2.1.symm, e.2.2.symm⟩ hk
      · exact e

/-- **C103, freeing.** After any calls, freeing the block at any place of the list succeeds; it takes one block, whose
size the memory in use shrinks by, and leaves all other blocks of all references. -/
theorem C103_evict (m : Mgr) (h : AfterCalls m) (p : Nat) (hp : p < m.list.length) :
    ∃ m' t i b, step m (.evict p) = some m' ∧ BlockIn m t i b ∧ m'.memUse = m.memUse - bytesAt m t i ∧
      ∀ t' j c, BlockIn m' t' j c ↔ BlockIn m t' j c ∧ ¬ (t' = t ∧ j = i ∧ c = b) := by
  have A := agree_after h
  have hg : m.list[p]? = some m.list[p] := List.getElem?_eq_getElem hp
  obtain ⟨t, m1, hd, hcb, hu, hl, A1, hm⟩ := unload_agree (agree_perm (eraseIdx_perm hg) A)
  have hin : BlockIn m t (m.list[p]).ref (m.list[p]).block := by
    refine (A.loaded t _ _).1 ?_
    rw [← hcb]
    exact List.getElem_mem hp
  obtain ⟨r, hr, hb⟩ := hin
  refine ⟨{ m1 with list := m1.list.eraseIdx p }, t, _, _, ?_, ⟨r, hr, hb⟩, ?_, fun t' j c => ?_⟩
  · simp only [step, evict, hg, hd, hu, Option.map_some]
  · unfold unload at hu
    rw [hr] at hu
    simp only [loaded_lt hb, if_true, Option.some.injEq] at hu
    subst hu
    simp [bytesAt, hr]
  · show LoadedIn m1.refs t' j c ↔ LoadedIn m.refs t' j c ∧ _
    rw [hm, modify_loaded m.refs t _ _ false r hr (loaded_lt hb) t' j c]
    by_cases hk : t = t' ∧ (m.list[p]).ref = j ∧ (m.list[p]).block = c
    · rw [if_pos hk]
      simp [hk]
    · rw [if_neg hk]
      exact ⟨fun x => ⟨x, fun y => hk ⟨y.1.symm, y.2.1.symm, y.2.2.symm⟩⟩, fun x => x.1⟩

/-- **C103, destroying a field.** After any calls, the blocks of the reference with type and number are gone; those of all
other references, also those of other types with the same number, stay. What is in use is again the memory of the blocks
that stay (`C103_memory`). A later call for a block of that reference is undefined. -/
theorem C103_remove (m : Mgr) (h : AfterCalls m) (t : VT) (i : Nat) (hi : i < m.refs.numRefs t) :
    ∃ m', step m (.remove t i) = some m' ∧ AfterCalls m' ∧
      (∀ t' j b, BlockIn m' t' j b ↔ BlockIn m t' j b ∧ ¬ (t' = t ∧ j = i)) ∧
      ∀ b p, step m' (.activate t i b p) = none := by
  obtain ⟨os, ho⟩ := h
  rw [numRefs_tab] at hi
  have hr : m.refs.ref t i = some (tab m.refs t)[i] := by rw [ref_tab, List.getElem?_eq_getElem hi]
  have hs : ∃ m', step m (.remove t i) = some m' := by
    simp only [step, remove, hr]
    exact ⟨_, rfl⟩
  obtain ⟨m', hs⟩ := hs
  have hrefs : m'.refs = m.refs.modify t i fun r => { r with stored := r.stored.map fun _ => false, loaded := [] } := by
    simp only [step, remove, hr, Option.some.injEq] at hs
    rw [← hs]
  refine ⟨m', hs, ⟨os ++ [.remove t i], ?_⟩, ?_, ?_⟩
  · have key : ∀ (os : List Op) (m0 : Mgr), run m0 os = some m → run m0 (os ++ [.remove t i]) = some m' := by
      intro os
      induction os with
      | nil => intro m0 h; simp only [run, Option.some.injEq] at h; subst h; simp [run, hs]
      | cons o os ih =>
        intro m0 h
        simp only [run, List.cons_append] at h ⊢
        cases hx : step m0 o with
        | none => rw [hx] at h; simp at h
        | some m1 => rw [hx] at h; exact ih m1 h
    exact key os _ ho
  · intro t' j b
    unfold BlockIn
    rw [hrefs, modify_ref]
    by_cases hk : t = t' ∧ i = j
    · obtain ⟨rfl, rfl⟩ := hk
      simp [hr]
    · rw [if_neg hk]
      exact ⟨fun x => ⟨x, fun y => hk ⟨y.1.symm, y.2.symm⟩⟩, fun x => x.1⟩
  · intro b p
    have : m'.refs.ref t i = some { (tab m.refs t)[i] with
        stored := (tab m.refs t)[i].stored.map fun _ => false, loaded := [] } := by
      rw [hrefs, modify_ref, if_pos ⟨rfl, rfl⟩, hr]
      rfl
    simp only [step, activate, this]
    simp

/-- A float and a vector field with two blocks each, three blocks loaded, then the float field is destroyed. -/
def refOps : List Op := [.register .float 4 [true, true], .register .vecFloat 12 [true, false], .activate .float 0 0 0,
  .activate .vecFloat 0 0 0, .activate .float 0 1 1]

theorem C103_witness : ∃ m, run Mgr.new refOps = some m ∧ m.memUse = 20 ∧ m.list.length = 3 ∧
    (∃ m', step m (.remove .float 0) = some m' ∧ m'.memUse = 12) ∧ (∃ m', step m (.evict 0) = some m' ∧ m'.memUse = 8) := by
  refine ⟨_, rfl, rfl, rfl, ⟨_, rfl, rfl⟩, ⟨_, rfl, rfl⟩⟩

end F3D.Props

import Verif.Proofs.OgawaGraph

/-! Every call keeps the invariant, and what a reader sees. -/

namespace F3D.OgawaGraph
open Ogawa (File le64 emptyData writeAt header Rec posOf layout lt_of_getElem? le64_length)

def Writer.parentsOf (w : Writer) (g : Nat) : List (Option (Nat × Nat)) := ((w.groups[g]?).map (·.parents)).getD []

def Writer.view (w : Writer) : View where
  file := w.file
  ng := w.groups.length
  nd := w.datas.length
  K := w.kids
  P := w.pos
  par := w.parentsOf
  dpos := fun x => ((w.datas[x]?).map (·.pos)).getD 0
  dsize := fun x => ((w.datas[x]?).map (·.size)).getD 0
  closed := w.closed

def Doc.view (d : Doc) : DV := ⟨d.groups.length, d.datas.length, d.items, d.frozen, d.bytes, d.closed⟩

def Good (w : Writer) (d : Doc) : Prop := ∃ log, Inv w.view d.view log

/-! ## Views -/

theorem view_pushKid (w : Writer) (g s : Nat) (hg : g < w.groups.length) :
    (w.pushKid g s).view = { w.view with K := fun j => if j = g then w.kids g ++ [s] else w.kids j } := by
  simp only [Writer.view, Writer.pushKid, View.mk.injEq, true_and, List.length_modify]
  refine ⟨?_, ?_, ?_, trivial⟩ <;> funext j
  · simp only [Writer.kids, List.getElem?_modify]
    by_cases e : j = g
    · subst e
      rw [if_pos rfl, List.getElem?_eq_getElem hg]
      simp
    · rw [if_neg e]
      cases w.groups[j]? <;> simp [Ne.symm e]
  · simp only [Writer.pos, List.getElem?_modify]
    cases w.groups[j]? with
    | none => simp
    | some o => by_cases e : g = j <;> simp [e]
  · simp only [Writer.parentsOf, List.getElem?_modify]
    cases w.groups[j]? with
    | none => simp
    | some o => by_cases e : g = j <;> simp [e]

theorem view_pushParent (w : Writer) (h : Nat) (x : Option (Nat × Nat)) (hh : h < w.groups.length) :
    (w.pushParent h x).view = { w.view with par := fun j => if j = h then w.parentsOf h ++ [x] else w.parentsOf j } := by
  simp only [Writer.view, Writer.pushParent, View.mk.injEq, true_and, List.length_modify]
  refine ⟨?_, ?_, ?_, trivial⟩ <;> funext j
  · simp only [Writer.kids, List.getElem?_modify]
    cases w.groups[j]? with
    | none => simp
    | some o => by_cases e : h = j <;> simp [e]
  · simp only [Writer.pos, List.getElem?_modify]
    cases w.groups[j]? with
    | none => simp
    | some o => by_cases e : h = j <;> simp [e]
  · simp only [Writer.parentsOf, List.getElem?_modify]
    by_cases e : j = h
    · subst e
      rw [if_pos rfl, List.getElem?_eq_getElem hh]
      simp
    · rw [if_neg e]
      cases w.groups[j]? <;> simp [Ne.symm e]

theorem view_setKid (w : Writer) (p i s : Nat) :
    (w.setKid p i s).view = { w.view with K := fun j => if j = p then (w.kids p).set i s else w.kids j } := by
  simp only [Writer.view, Writer.setKid, View.mk.injEq, true_and, List.length_modify]
  refine ⟨?_, ?_, ?_, trivial⟩ <;> funext j
  · simp only [Writer.kids, List.getElem?_modify]
    by_cases e : j = p
    · subst e
      rw [if_pos rfl]
      cases w.groups[j]? <;> simp
    · rw [if_neg e]
      cases w.groups[j]? <;> simp [Ne.symm e]
  · simp only [Writer.pos, List.getElem?_modify]
    cases w.groups[j]? with
    | none => simp
    | some o => by_cases e : p = j <;> simp [e]
  · simp only [Writer.parentsOf, List.getElem?_modify]
    cases w.groups[j]? with
    | none => simp
    | some o => by_cases e : p = j <;> simp [e]

theorem view_setPos (w : Writer) (g v : Nat) (hg : g < w.groups.length) :
    ({ w with groups := w.groups.modify g fun o => { o with pos := some v } } : Writer).view =
      { w.view with P := fun j => if j = g then some v else w.pos j } := by
  simp only [Writer.view, View.mk.injEq, true_and, List.length_modify]
  refine ⟨?_, ?_, ?_, trivial⟩ <;> funext j
  · simp only [Writer.kids, List.getElem?_modify]
    cases w.groups[j]? with
    | none => simp
    | some o => by_cases e : g = j <;> simp [e]
  · simp only [Writer.pos, List.getElem?_modify]
    by_cases e : j = g
    · subst e
      rw [if_pos rfl, List.getElem?_eq_getElem hg]
      simp
    · rw [if_neg e]
      cases w.groups[j]? <;> simp [Ne.symm e]
  · simp only [Writer.parentsOf, List.getElem?_modify]
    cases w.groups[j]? with
    | none => simp
    | some o => by_cases e : g = j <;> simp [e]

theorem view_clear (w : Writer) (g : Nat) :
    ({ w with groups := w.groups.modify g fun o => { o with parents := [] } } : Writer).view =
      { w.view with par := fun j => if j = g then [] else w.parentsOf j } := by
  simp only [Writer.view, View.mk.injEq, true_and, List.length_modify]
  refine ⟨?_, ?_, ?_, trivial⟩ <;> funext j
  · simp only [Writer.kids, List.getElem?_modify]
    cases w.groups[j]? with
    | none => simp
    | some o => by_cases e : g = j <;> simp [e]
  · simp only [Writer.pos, List.getElem?_modify]
    cases w.groups[j]? with
    | none => simp
    | some o => by_cases e : g = j <;> simp [e]
  · simp only [Writer.parentsOf, List.getElem?_modify]
    by_cases e : j = g
    · subst e
      rw [if_pos rfl]
      cases w.groups[j]? <;> simp
    · rw [if_neg e]
      cases w.groups[j]? <;> simp [Ne.symm e]

theorem view_write (w : Writer) (p : Nat) (bs : List UInt8) : (w.write p bs).view = { w.view with file := writeAt w.file p bs } := rfl

theorem view_append (w : Writer) (bs : List UInt8) : (w.append bs).view = { w.view with file := w.file ++ bs } := by
  unfold Writer.append
  rw [view_write, Ogawa.writeAt_end]

theorem dview_push (d : Doc) (g : Nat) (it : Item) (hg : g < d.groups.length) :
    (d.push g it).view = { d.view with items := fun j => if j = g then d.items g ++ [it] else d.items j } := by
  simp only [Doc.view, Doc.push, DV.mk.injEq, true_and, List.length_modify]
  refine ⟨?_, ?_, rfl, trivial⟩ <;> funext j
  · simp only [Doc.items, List.getElem?_modify]
    by_cases e : j = g
    · subst e
      rw [if_pos rfl, List.getElem?_eq_getElem hg]
      simp
    · rw [if_neg e]
      cases d.groups[j]? <;> simp [Ne.symm e]
  · simp only [Doc.frozen, List.getElem?_modify]
    cases d.groups[j]? with
    | none => simp
    | some o => by_cases e : g = j <;> simp [e]

theorem dview_make (d : Doc) (bs : List UInt8) :
    (d.make bs).view = { d.view with nd := d.datas.length + 1, bytes := fun x => if x = d.datas.length then bs else d.bytes x } := by
  simp only [Doc.view, Doc.make, DV.mk.injEq, true_and, List.length_append, List.length_singleton, and_true]
  refine ⟨rfl, rfl, ?_⟩
  funext x
  simp only [Doc.bytes, List.getElem?_append]
  by_cases e : x = d.datas.length
  · subst e; simp
  · rw [if_neg e]
    by_cases k : x < d.datas.length
    · rw [if_pos k]
    · rw [if_neg k, List.getElem?_eq_none (by simp; omega), List.getElem?_eq_none (by omega)]

theorem view_make (w : Writer) (p n : Nat) :
    ({ w with datas := w.datas ++ [⟨p, n⟩] } : Writer).view = { w.view with
      nd := w.datas.length + 1
      dpos := fun x => if x = w.datas.length then p else w.view.dpos x
      dsize := fun x => if x = w.datas.length then n else w.view.dsize x } := by
  simp only [Writer.view, View.mk.injEq, true_and, List.length_append, List.length_singleton, and_true]
  refine ⟨rfl, rfl, rfl, ?_, ?_⟩ <;> funext x <;> rw [List.getElem?_append] <;> by_cases e : x = w.datas.length
  · subst e; simp
  · rw [if_neg e]
    by_cases k : x < w.datas.length
    · rw [if_pos k]
    · rw [if_neg k, List.getElem?_eq_none (by simp; omega), List.getElem?_eq_none (by omega)]
  · subst e; simp
  · rw [if_neg e]
    by_cases k : x < w.datas.length
    · rw [if_pos k]
    · rw [if_neg k, List.getElem?_eq_none (by simp; omega), List.getElem?_eq_none (by omega)]

/-! ## Steps -/

section
variable {w : Writer} {d : Doc}

theorem good_init : Good Writer.init Doc.init := by
  have hk : ∀ g, Writer.init.kids g = [] := by intro g; cases g <;> rfl
  have hi : ∀ g, Doc.init.items g = [] := by intro g; cases g <;> rfl
  have hp : ∀ g, Writer.init.pos g = none := by intro g; cases g <;> rfl
  have hf : ∀ g, Doc.init.frozen g = false := by intro g; cases g <;> rfl
  have h0 : Writer.init.parentsOf 0 = [none] := rfl
  have hr : ∀ g, Writer.init.parentsOf (g + 1) = [] := fun g => rfl
  refine ⟨[], ?_⟩
  constructor
  · rfl
  · rfl
  · rfl
  · exact Nat.one_pos
  · intro g; show Doc.init.frozen g = (Writer.init.pos g).isSome; rw [hf, hp]; rfl
  · intro g; show Writer.init.kids g = (Doc.init.items g).map _; rw [hk, hi]; rfl
  · rfl
  · intro x; rfl
  · intro x _; rfl
  · intro x hx; exact absurd rfl hx
  · intro g p h; rw [show Writer.init.view.P g = none from hp g] at h; cases h
  · intro r x h; simp at h
  · intro r x h; simp at h
  · intro g h hm; rw [show Doc.init.view.items g = [] from hi g] at hm; cases hm
  · intro g h hm; rw [show Doc.init.view.items g = [] from hi g] at hm; cases hm
  · intro g hg
    have : 1 ≤ g := hg
    refine ⟨hi g, hp g, ?_⟩
    cases g with
    | zero => omega
    | succ g => rfl
  · intro x _; rfl
  · intro h hh _ g i
    have : h < 1 := hh
    have e : h = 0 := by omega
    subst e
    rw [show Doc.init.view.items g = [] from hi g, show Writer.init.view.par 0 = [none] from rfl]
    simp
  · intro h hh _
    have : h < 1 := hh
    have e : h = 0 := by omega
    subst e
    rw [show Writer.init.view.par 0 = [none] from rfl]
    simp
  · intro h; cases h

theorem open_iff (w : Writer) (g : Nat) : w.isOpen g = true ↔ g < w.groups.length ∧ w.pos g = none := by
  simp [Writer.isOpen]

theorem Good.open_eq (h : Good w d) (g : Nat) : d.isOpen g = w.isOpen g := by
  obtain ⟨log, I⟩ := h
  have h1 : w.groups.length = d.groups.length := I.ng
  have h2 : d.frozen g = (w.pos g).isSome := I.fro g
  simp only [Doc.isOpen, Writer.isOpen, h1, h2]
  cases w.pos g <;> rfl

theorem Good.not_closed (h : Good w d) {g : Nat} (ho : w.isOpen g = true) : w.closed = false := by
  obtain ⟨log, I⟩ := h
  obtain ⟨hg, hp⟩ := (open_iff w g).1 ho
  cases hc : w.closed with
  | false => rfl
  | true =>
    have := I.allFro hc g hg
    rw [show w.view.P g = none from hp] at this; cases this

/-- A child that is not an open group. -/
theorem Good.push (h : Good w d) (g : Nat) (ho : w.isOpen g = true) (it : Item)
    (hi : ∀ x, it = .group x → x < w.groups.length ∧ (w.pos x).isSome = true) (hd : ∀ x, it = .data x → x < w.datas.length) (s : Nat)
    (hs : s = slotVal w.pos w.view.dpos it) : Good (w.pushKid g s) (d.push g it) := by
  obtain ⟨log, I⟩ := h
  obtain ⟨hg, hp⟩ := (open_iff w g).1 ho
  refine ⟨log, ?_⟩
  have hgd : g < d.groups.length := by have := I.ng; change w.groups.length = d.groups.length at this; omega
  rw [view_pushKid w g s hg, dview_push d g it hgd, hs]
  refine I.push g it hg hp (fun x hx => (hi x hx).1) hd w.view.par fun x => ?_
  rw [if_neg]
  rintro ⟨k, k'⟩
  have := (hi x k).2
  rw [show w.pos x = none from k'] at this; cases this

/-- A child that is an open group. -/
theorem Good.share (h : Good w d) (g x : Nat) (ho : w.isOpen g = true) (hx : w.isOpen x = true) :
    Good ((w.pushKid g 0).pushParent x (some (g, (w.kids g).length))) (d.push g (.group x)) := by
  obtain ⟨log, I⟩ := h
  obtain ⟨hg, hp⟩ := (open_iff w g).1 ho
  obtain ⟨hxl, hxp⟩ := (open_iff w x).1 hx
  refine ⟨log, ?_⟩
  have hgd : g < d.groups.length := by have := I.ng; change w.groups.length = d.groups.length at this; omega
  rw [view_pushParent _ _ _ (by simpa [Writer.pushKid] using hxl), view_pushKid w g 0 hg, dview_push d g _ hgd]
  have hpar : (w.pushKid g 0).parentsOf = w.parentsOf := congrArg View.par (view_pushKid w g 0 hg)
  have hkl : (w.kids g).length = (d.items g).length := by
    have := I.kids g
    rw [show w.kids g = _ from this]; simp; rfl
  have := I.push g (.group x) hg hp (fun y hy => by cases hy; exact hxl) (fun y hy => by cases hy)
    (fun j => if j = x then (w.pushKid g 0).parentsOf x ++ [some (g, (w.kids g).length)] else (w.pushKid g 0).parentsOf j)
    (fun j => by
      rw [hpar, hkl]
      by_cases e : j = x
      · subst e
        rw [if_pos rfl, if_pos ⟨rfl, hxp⟩]; rfl
      · rw [if_neg e, if_neg (fun k => e (Item.group.inj k.1).symm)]; rfl)
  rw [show slotVal w.view.P w.view.dpos (.group x) = 0 by
    show (w.pos x).getD 0 = 0
    rw [hxp]; rfl] at this
  exact this

theorem Good.addGroup (h : Good w d) (g : Nat) : Good (w.step (.addGroup g)) (d.step (.addGroup g)) := by
  simp only [Writer.step, Doc.step, Writer.addGroup, h.open_eq g]
  split
  · rename_i ho
    have hc := h.not_closed ho
    obtain ⟨hg, hp⟩ := (open_iff w g).1 ho
    have hlen : w.groups.length = d.groups.length := h.choose_spec.ng
    have hout := h.choose_spec.outg w.groups.length (Nat.le_refl _)
    have h2 : Good { w with groups := w.groups ++ [⟨[], [], none⟩] } { d with groups := d.groups ++ [([], false)] } := by
      obtain ⟨log, I⟩ := h
      refine ⟨log, ?_⟩
      have e1 : ({ w with groups := w.groups ++ [⟨[], [], none⟩] } : Writer).view = { w.view with ng := w.groups.length + 1 } := by
        simp only [Writer.view, View.mk.injEq, true_and, List.length_append, List.length_singleton]
        refine ⟨?_, ?_, ?_, trivial⟩ <;> funext j
        all_goals
          simp only [Writer.kids, Writer.pos, Writer.parentsOf]
          rw [List.getElem?_append]
          by_cases k : j < w.groups.length
          · rw [if_pos k]
          · rw [if_neg k, List.getElem?_eq_none (by omega : w.groups.length ≤ j)]
            generalize j - w.groups.length = m
            cases m <;> rfl
      have e2 : ({ d with groups := d.groups ++ [([], false)] } : Doc).view = { d.view with ng := d.groups.length + 1 } := by
        simp only [Doc.view, DV.mk.injEq, true_and, List.length_append, List.length_singleton]
        refine ⟨?_, ?_, rfl, trivial⟩ <;> funext j
        all_goals
          simp only [Doc.items, Doc.frozen]
          rw [List.getElem?_append]
          by_cases k : j < d.groups.length
          · rw [if_pos k]
          · rw [if_neg k, List.getElem?_eq_none (by omega : d.groups.length ≤ j)]
            generalize j - d.groups.length = m
            cases m <;> rfl
      rw [e1, e2]
      exact I.newGroup hc
    have h3 := h2.share g w.groups.length
      (by
        rw [open_iff]
        refine ⟨by simp; omega, ?_⟩
        show ((w.groups ++ [_])[g]?).bind _ = none
        rw [List.getElem?_append_left hg]; exact hp)
      (by rw [open_iff]; refine ⟨by simp, ?_⟩; simp [Writer.pos])
    have ew : ((({ w with groups := w.groups ++ [⟨[], [], none⟩] } : Writer).pushKid g 0).pushParent w.groups.length
        (some (g, (Writer.kids { w with groups := w.groups ++ [⟨[], [], none⟩] } g).length))) =
        { w.pushKid g 0 with groups := (w.pushKid g 0).groups ++ [⟨[], [some (g, (w.kids g).length)], none⟩] } := by
      simp only [Writer.pushParent, Writer.pushKid, Writer.mk.injEq, true_and, and_true]
      apply List.ext_getElem?
      intro j
      simp only [List.getElem?_modify, List.getElem?_append, Writer.kids, List.length_modify, hg, if_true]
      by_cases k : j < w.groups.length
      · have : w.groups.length ≠ j := by omega
        simp [k, this]
      · rcases Nat.eq_or_lt_of_le (Nat.le_of_not_lt k) with e | e
        · subst e
          have : g ≠ w.groups.length := by omega
          simp [this]
        · have h1 : w.groups.length ≠ j := by omega
          have h2 : g ≠ j := by omega
          have h3 : ∃ m, j - w.groups.length = m + 1 := ⟨j - w.groups.length - 1, by omega⟩
          obtain ⟨m, hm⟩ := h3
          simp [k, h1, h2, hm]
    have ed : (({ d with groups := d.groups ++ [([], false)] } : Doc).push g (.group w.groups.length)) =
        { d.push g (.group d.groups.length) with groups := (d.push g (.group d.groups.length)).groups ++ [([], false)] } := by
      rw [hlen]
      simp only [Doc.push, Doc.mk.injEq, true_and, and_true]
      apply List.ext_getElem?
      intro j
      rw [hlen] at hg
      simp only [List.getElem?_modify, List.getElem?_append, List.length_modify]
      by_cases k : j < d.groups.length
      · simp [k]
      · have : g ≠ j := by omega
        simp [k, this]
    rw [ew, ed] at h3
    exact h3
  · exact h

theorem Good.make (h : Good w d) (bs : List UInt8) (hb : bs ≠ []) :
    Good { (w.append (le64 bs.length)).append bs with datas := w.datas ++ [⟨w.file.length, bs.length⟩] } (d.make bs) := by
  obtain ⟨log, I⟩ := h
  have hnd : w.datas.length = d.datas.length := I.nd
  refine ⟨log ++ [.data w.datas.length], ?_⟩
  have := I.newData bs hb
  have e : ({ (w.append (le64 bs.length)).append bs with datas := w.datas ++ [⟨w.file.length, bs.length⟩] } : Writer).view =
      { w.view with
        file := w.file ++ (le64 bs.length ++ bs)
        nd := w.datas.length + 1
        dpos := fun x => if x = w.datas.length then w.file.length else w.view.dpos x
        dsize := fun x => if x = w.datas.length then bs.length else w.view.dsize x } := by
    have h1 := view_make ((w.append (le64 bs.length)).append bs) w.file.length bs.length
    refine Eq.trans h1 ?_
    rw [view_append, view_append]
    simp only [Writer.append, Writer.write, Ogawa.writeAt_end, List.append_assoc]
  rw [e, dview_make, ← hnd]
  rw [show d.view.nd = w.datas.length from hnd.symm] at this
  exact this

theorem createData_eq (w : Writer) (g : Nat) (bs : List UInt8) (hb : bs ≠ []) (ho : w.isOpen g = true) :
    w.createData g bs = { (w.append (le64 bs.length)).append bs with datas := w.datas ++ [⟨w.file.length, bs.length⟩] } := by
  unfold Writer.createData
  rw [if_pos ho, if_neg (by simpa using hb)]
  rfl

theorem append_append (w : Writer) (a b : List UInt8) : (w.append a).append b = w.append (a ++ b) := by
  simp only [Writer.append, Writer.write, Ogawa.writeAt_end, List.append_assoc]

/-- Parts are written like one piece. -/
theorem createParts_eq (w : Writer) (g : Nat) (ps : List (List UInt8)) : w.createParts g ps = w.createData g ps.flatten := by
  have hl : (ps.map (·.length)).sum = ps.flatten.length := by rw [List.length_flatten]
  unfold Writer.createParts Writer.createData
  rw [hl]
  by_cases ho : w.isOpen g = true
  · rw [if_pos ho, if_pos ho]
    by_cases hz : ps.flatten.length = 0
    · simp only [hz, if_true]
    · have : ∀ (ps : List (List UInt8)) (w : Writer), ps.foldl (fun w p => if p.length ≠ 0 then w.append p else w) w =
          w.append ps.flatten := by
        intro ps
        induction ps with
        | nil => intro w; simp [Writer.append, Writer.write, Ogawa.writeAt_end]
        | cons p ps ih =>
          intro w
          rw [List.foldl_cons, ih, List.flatten_cons]
          split
          · rw [append_append]
          · rename_i k
            have : p = [] := List.eq_nil_of_length_eq_zero (by omega)
            rw [this]; rfl
      simp only [this, hz, if_false]
  · rw [if_neg ho, if_neg ho]

theorem Good.create (h : Good w d) (g : Nat) (bs : List UInt8) (hb : bs ≠ []) :
    Good (w.step (.createData g bs)) (d.step (.createData g bs)) := by
  simp only [Writer.step, Doc.step, h.open_eq g]
  split
  · rename_i ho
    rw [createData_eq w g bs hb ho]
    exact h.make bs hb
  · rename_i ho
    rw [Writer.createData, if_neg ho]
    exact h

theorem Good.add (h : Good w d) (g : Nat) (bs : List UInt8) (hb : bs ≠ []) :
    Good (w.step (.addData g bs)) (d.step (.addData g bs)) := by
  simp only [Writer.step, Doc.step, h.open_eq g, Writer.addData]
  split
  · rename_i ho
    rw [createData_eq w g bs hb ho]
    have hnd : w.datas.length = d.datas.length := h.choose_spec.nd
    have h2 := h.make bs hb
    unfold Writer.addLast
    refine h2.push g ho (.data d.datas.length) (fun x hx => by cases hx) (fun x hx => by cases hx; simp [hnd]) _ ?_
    rw [← hnd]
    simp [slotVal, Writer.view]
  · exact h

theorem Good.shareData (h : Good w d) (g x : Nat) : Good (w.step (.shareData g x)) (d.step (.shareData g x)) := by
  have hnd : w.datas.length = d.datas.length := h.choose_spec.nd
  simp only [Writer.step, Doc.step, h.open_eq g, Writer.shareData]
  by_cases ho : w.isOpen g = true
  · rw [if_pos ho]
    by_cases hx : x < w.datas.length
    · rw [if_pos ⟨ho, by omega⟩, List.getElem?_eq_getElem hx]
      refine h.push g ho (.data x) (fun y hy => by cases hy) (fun y hy => by cases hy; exact hx) _ ?_
      simp [slotVal, Writer.view, List.getElem?_eq_getElem hx]
    · rw [if_neg (fun k => hx (by omega)), List.getElem?_eq_none (by omega)]
      exact h
  · rw [if_neg ho, if_neg (fun k => ho k.1)]
    exact h

theorem Good.shareGroup (h : Good w d) (g x : Nat) : Good (w.step (.shareGroup g x)) (d.step (.shareGroup g x)) := by
  have hng : w.groups.length = d.groups.length := h.choose_spec.ng
  simp only [Writer.step, Doc.step, h.open_eq g, Writer.shareGroup]
  by_cases ho : w.isOpen g = true
  · rw [if_pos ho]
    by_cases hx : x < w.groups.length
    · rw [if_pos hx, if_pos ⟨ho, by omega⟩]
      cases hp : w.pos x with
      | some p =>
        exact h.push g ho (.group x) (fun y hy => by cases hy; exact ⟨hx, by rw [hp]; rfl⟩) (fun y hy => by cases hy) _
          (by simp [slotVal, hp])
      | none => exact h.share g x ho ((open_iff w x).2 ⟨hx, hp⟩)
    · rw [if_neg hx, if_neg (fun k => hx (by omega))]
      exact h
  · rw [if_neg ho, if_neg (fun k => ho k.1)]
    exact h

theorem fold_view (v : Nat) (ps : List (Option (Nat × Nat))) : ∀ w : Writer, (ps.foldl (Writer.patch v) w).view =
    { w.view with
      file := (ps.foldl (patchV w.pos v) (w.file, w.kids)).1
      K := (ps.foldl (patchV w.pos v) (w.file, w.kids)).2 } := by
  induction ps with
  | nil => intro w; rfl
  | cons a ps ih =>
    intro w
    rw [List.foldl_cons, List.foldl_cons, ih]
    have key : (Writer.patch v w a).view = { w.view with file := (patchV w.pos v (w.file, w.kids) a).1
                                                         K := (patchV w.pos v (w.file, w.kids) a).2 } := by
      rcases a with _ | ⟨p, i⟩
      · rfl
      · unfold Writer.patch
        simp only
        rw [view_setKid]
        cases hp : w.pos p with
        | none => simp only [patchV, hp]; rfl
        | some q => simp only [patchV, hp]; rfl
    have h1 : (Writer.patch v w a).pos = w.pos := congrArg View.P key
    have h2 : (Writer.patch v w a).file = _ := congrArg View.file key
    have h3 : (Writer.patch v w a).kids = _ := congrArg View.K key
    rw [key, h1, h2, h3]

theorem Good.freeze (h : Good w d) (g : Nat) : Good (w.step (.freeze g)) (d.step (.freeze g)) := by
  simp only [Writer.step, Writer.freeze, Doc.step]
  have hng : w.groups.length = d.groups.length := h.choose_spec.ng
  split
  · rename_i ho
    obtain ⟨hg, hp⟩ := (open_iff w g).1 ho
    obtain ⟨log, I⟩ := h
    obtain ⟨log', J⟩ := I.freeze g hg hp
    refine ⟨log', ?_⟩
    have ed : ({ d with groups := d.groups.modify g fun x => (x.1, true) } : Doc).view =
        { d.view with frozen := fun j => if j = g then true else d.view.frozen j } := by
      simp only [Doc.view, DV.mk.injEq, true_and, List.length_modify]
      refine ⟨?_, ?_, rfl, trivial⟩ <;> funext j
      · simp only [Doc.items, List.getElem?_modify]
        cases d.groups[j]? with
        | none => simp
        | some o => by_cases e : g = j <;> simp [e]
      · simp only [Doc.frozen, List.getElem?_modify]
        by_cases e : j = g
        · subst e
          rw [if_pos rfl, List.getElem?_eq_getElem (by omega)]
          simp
        · rw [if_neg e]
          cases d.groups[j]? <;> simp [Ne.symm e]
    rw [ed]
    -- the state before the loop
    generalize hw1 : (if w.kids g = [] then w else (w.append (le64 (w.kids g).length)).append ((w.kids g).flatMap le64)) = w1
    have v1 : w1.view = { w.view with file := tabled w.view g } := by
      rw [← hw1]
      unfold tabled
      by_cases k : w.kids g = []
      · rw [if_pos k, if_pos (show w.view.K g = [] from k)]
      · rw [if_neg k, if_neg (show ¬ w.view.K g = [] from k), append_append, view_append]; rfl
    have hpl : (if w.kids g = [] then 0 else w.file.length) = place w.view g := rfl
    rw [hpl]
    have hg1 : g < w1.groups.length := by
      have : w1.groups.length = w.groups.length := congrArg View.ng v1
      omega
    have v2 := view_setPos w1 g (place w.view g) hg1
    change Inv (Writer.view
      (let w2 : Writer := { w1 with groups := w1.groups.modify g fun o => { o with pos := some (place w.view g) } }
       let w3 := (w2.parentsOf g).foldl (Writer.patch (place w.view g)) w2
       { w3 with groups := w3.groups.modify g fun o => { o with parents := [] } })) _ log'
    generalize ({ w1 with groups := w1.groups.modify g fun o => { o with pos := some (place w.view g) } } : Writer) = w2 at v2 ⊢
    rw [v1] at v2
    have p2 : w2.pos = fun j => if j = g then some (place w.view g) else w1.pos j := congrArg View.P v2
    have p1 : w1.pos = w.pos := congrArg View.P v1
    have f2 : w2.file = tabled w.view g := congrArg View.file v2
    have k2 : w2.kids = w.kids := congrArg View.K v2
    have q2 : w2.parentsOf = w.parentsOf := congrArg View.par v2
    rw [view_clear]
    have v3 := fold_view (place w.view g) (w2.parentsOf g) w2
    have q3 : ((w2.parentsOf g).foldl (Writer.patch (place w.view g)) w2).parentsOf = w.parentsOf := by
      rw [show ((w2.parentsOf g).foldl (Writer.patch (place w.view g)) w2).parentsOf = w2.parentsOf from congrArg View.par v3, q2]
    change Inv { ((w2.parentsOf g).foldl (Writer.patch (place w.view g)) w2).view with
      par := fun j => if j = g then [] else ((w2.parentsOf g).foldl (Writer.patch (place w.view g)) w2).parentsOf j } _ log'
    rw [q3, v3, v2, f2, k2, p2, p1, q2]
    exact J
  · rename_i ho
    have : ({ d with groups := d.groups.modify g fun x => (x.1, true) } : Doc) = d := by
      have e : d.groups.modify g (fun x => (x.1, true)) = d.groups := by
        apply List.ext_getElem?
        intro j
        rw [List.getElem?_modify]
        cases hj : d.groups[j]? with
        | none => rfl
        | some o =>
          by_cases k : g = j
          · subst k
            have ho' : ¬ d.isOpen g = true := by rw [h.open_eq]; exact ho
            simp only [Doc.isOpen, Doc.frozen, hj, lt_of_getElem? hj, Option.map_some, Option.getD_some, decide_true,
              Bool.true_and, Bool.not_eq_true, Bool.not_eq_false'] at ho'
            simp [← ho']
          · simp [k]
      rw [e]
    rw [this]
    exact h

theorem layout_ok {v : View} {dv : DV} {log} (I : Inv v dv log) (hL : v.file.length < 2 ^ 63) (h : Nat) : (v.P h).getD 0 < 2 ^ 63 := by
  cases hp : v.P h with
  | none => simp
  | some p =>
    rcases I.gpos h p hp with ⟨-, rfl⟩ | ⟨-, r, hr, rfl⟩
    · simp
    · have := Ogawa.rec_le (flag v.closed) ((v.P 0).getD 0) _ r _ (recs_get (K := v.K) (b := dv.bytes) hr)
      rw [← I.file] at this
      simp only [Option.getD_some]
      omega

theorem dpos_lt {v : View} {dv : DV} {log} (I : Inv v dv log) (hL : v.file.length < 2 ^ 63) (x : Nat) :
    v.dpos x + 8 + (dv.bytes x).length ≤ v.file.length ∨ (dv.bytes x = [] ∧ v.dpos x = 0) := by
  by_cases h : dv.bytes x = []
  · exact .inr ⟨h, I.dnil x h⟩
  · left
    obtain ⟨r, hr, e⟩ := I.drec x h
    have := Ogawa.rec_le (flag v.closed) ((v.P 0).getD 0) _ r _ (recs_get (K := v.K) (b := dv.bytes) hr)
    rw [← I.file] at this
    simp only [recOf, Rec.enc, List.length_append, le64_length] at this
    rw [e]; omega

theorem slot_isData {v : View} {dv : DV} {log} (I : Inv v dv log) (hL : v.file.length < 2 ^ 63) (it : Item) :
    decide (slotVal v.P v.dpos it &&& emptyData ≠ 0) = Doc.isData it := by
  cases it with
  | group h =>
    rw [decide_eq_false (by simp only [slotVal, ne_eq, Decidable.not_not]; exact Ogawa.pos_and _ (layout_ok I hL h))]
    rfl
  | data x =>
    have : v.dpos x < 2 ^ 63 := by rcases dpos_lt I hL x with h | h <;> omega
    rw [decide_eq_true (by simp only [slotVal]; exact Ogawa.data_and _ this)]
    rfl
  | noGroup => show decide (0 &&& emptyData ≠ 0) = false; decide
  | noData => show decide (emptyData &&& emptyData ≠ 0) = true; decide

theorem Good.childData (h : Good w d) (hL : w.file.length < 2 ^ 63) (g i : Nat) :
    w.isChildData g i = ((d.items g)[i]?).any Doc.isData := by
  obtain ⟨log, I⟩ := h
  unfold Writer.isChildData
  rw [show w.kids g = (d.items g).map (slotVal w.pos w.view.dpos) from I.kids g, List.getElem?_map]
  cases (d.items g)[i]? with
  | none => rfl
  | some it => exact slot_isData I hL it

theorem Good.replace (h : Good w d) (hL : w.file.length < 2 ^ 63) (g i x : Nat) :
    Good (w.step (.replaceData g i x)) (d.step (.replaceData g i x)) := by
  have hc : w.closed = d.closed := h.choose_spec.closed
  have hnd : w.datas.length = d.datas.length := h.choose_spec.nd
  have hcd := h.childData hL g i
  simp only [Writer.step, Doc.step, Writer.replaceData]
  by_cases c : w.closed = true
  · rw [if_pos c, if_neg (by rw [← hc, c]; simp)]; exact h
  · rw [if_neg c]
    by_cases hx : x < w.datas.length
    · rw [List.getElem?_eq_getElem hx]
      simp only
      by_cases hi : w.isChildData g i = true
      · rw [if_pos hi, if_pos ⟨by rw [← hc]; simpa using c, by omega, by rw [← hcd]; exact hi⟩]
        rw [hcd] at hi
        obtain ⟨log, I⟩ := h
        refine ⟨log, ?_⟩
        cases hit : (d.items g)[i]? with
        | none => rw [hit] at hi; cases hi
        | some it =>
          rw [hit] at hi
          have J := I.replace g i x hx it hit hi
          have hpos : w.view.dpos x = w.datas[x].pos := by simp [Writer.view, List.getElem?_eq_getElem hx]
          have ed : ({ d with groups := d.groups.modify g fun y => (y.1.set i (.data x), y.2) } : Doc).view =
              { d.view with items := fun j => if j = g then (d.view.items g).set i (.data x) else d.view.items j } := by
            simp only [Doc.view, DV.mk.injEq, true_and, List.length_modify]
            refine ⟨?_, ?_, rfl, trivial⟩ <;> funext j
            · simp only [Doc.items, List.getElem?_modify]
              by_cases e : j = g
              · subst e
                rw [if_pos rfl]
                cases d.groups[j]? <;> simp
              · rw [if_neg e]
                cases d.groups[j]? <;> simp [Ne.symm e]
            · simp only [Doc.frozen, List.getElem?_modify]
              cases d.groups[j]? with
              | none => simp
              | some o => by_cases e : g = j <;> simp [e]
          rw [ed, view_setKid, ← hpos]
          cases hp : w.pos g with
          | none =>
            simp only
            rw [show w.view.P g = none from hp] at J
            exact J
          | some q =>
            simp only
            rw [show w.view.P g = some q from hp] at J
            exact J
      · rw [if_neg hi, if_neg (fun k => hi (by rw [hcd]; exact k.2.2))]; exact h
    · rw [List.getElem?_eq_none (by omega), if_neg (fun k => hx (by omega))]; exact h

theorem Good.rewrite (h : Good w d) (hL : w.file.length < 2 ^ 63) (x : Nat) (bs : List UInt8) (off : Nat)
    (hb : off + bs.length < 2 ^ 64) : Good (w.step (.rewrite x bs off)) (d.step (.rewrite x bs off)) := by
  have hc : w.closed = d.closed := h.choose_spec.closed
  have hnd : w.datas.length = d.datas.length := h.choose_spec.nd
  have hsz : w.view.dsize x = (d.bytes x).length := h.choose_spec.size x
  simp only [Writer.step, Doc.step, Writer.rewrite]
  have same : off + bs.length ≤ (d.bytes x).length → bs = [] →
      ({ d with datas := d.datas.modify x fun old => old.take off ++ bs ++ old.drop (off + bs.length) } : Doc) = d := by
    rintro - rfl
    have e : d.datas.modify x (fun old => old.take off ++ [] ++ old.drop (off + ([] : List UInt8).length)) = d.datas := by
      apply List.ext_getElem?
      intro j
      rw [List.getElem?_modify]
      cases d.datas[j]? with
      | none => rfl
      | some o => by_cases k : x = j <;> simp
    rw [e]
  by_cases c : w.closed = true
  · rw [if_pos c, if_neg (by rw [← hc, c]; simp)]; exact h
  · rw [if_neg c]
    by_cases hx : x < w.datas.length
    · rw [List.getElem?_eq_getElem hx]
      simp only
      have hs : w.datas[x].size = (d.bytes x).length := by rw [← hsz]; simp [Writer.view, List.getElem?_eq_getElem hx]
      have hp : w.datas[x].pos = w.view.dpos x := by simp [Writer.view, List.getElem?_eq_getElem hx]
      rw [hs, hp, Nat.mod_eq_of_lt hb]
      by_cases hle : off + bs.length ≤ (d.bytes x).length
      · have hcd : d.closed = false ∧ off + bs.length ≤ (d.bytes x).length := ⟨by rw [← hc]; simpa using c, hle⟩
        by_cases hbs : bs = []
        · rw [if_pos (Or.inl (by simp [hbs])), if_pos hcd, same hle hbs]
          exact h
        · have hb0 : bs.length ≠ 0 := by simpa using hbs
          rw [if_neg (by omega), if_pos hcd]
          obtain ⟨log, I⟩ := h
          refine ⟨log, ?_⟩
          have hd := dpos_lt I hL x
          have hd' : w.view.dpos x + 8 + (d.bytes x).length ≤ w.file.length := by
            rcases hd with k | ⟨k, -⟩
            · exact k
            · have k0 : (d.bytes x).length = 0 := by rw [show d.bytes x = [] from k]; rfl
              omega
          rw [Nat.mod_eq_of_lt (by omega), view_write]
          have ed : ({ d with datas := d.datas.modify x fun old => old.take off ++ bs ++ old.drop (off + bs.length) } : Doc).view =
              { d.view with bytes := fun y => if y = x then (d.bytes x).take off ++ bs ++ (d.bytes x).drop (off + bs.length)
                                                else d.bytes y } := by
            simp only [Doc.view, DV.mk.injEq, true_and, List.length_modify]
            refine ⟨rfl, rfl, ?_, trivial⟩
            funext j
            simp only [Doc.bytes, List.getElem?_modify]
            by_cases e : j = x
            · subst e
              rw [if_pos rfl, List.getElem?_eq_getElem (by omega)]
              simp
            · rw [if_neg e]
              cases d.datas[j]? <;> simp [Ne.symm e]
          rw [ed]
          exact I.rewrite x bs off hle hbs
      · rw [if_pos (.inr (.inr (by omega))), if_neg (fun k => hle k.2)]
        exact h
    · rw [List.getElem?_eq_none (by omega)]
      simp only
      have hn : d.bytes x = [] := by simp [Doc.bytes, List.getElem?_eq_none (by omega : d.datas.length ≤ x)]
      split
      · rename_i k
        have k0 : (d.bytes x).length = 0 := by rw [hn]; rfl
        have k2 := k.2
        rw [same k2 (List.eq_nil_of_length_eq_zero (by omega))]
        exact h
      · exact h

theorem Good.close (h : Good w d) : Good (w.step .close) (d.step .close) := by
  obtain ⟨log, I⟩ := h
  have hng : w.groups.length = d.groups.length := I.ng
  have hc : w.closed = d.closed := I.closed
  have e : w.groups.all (fun o => o.pos.isSome) = true ↔ ∀ g, g < w.groups.length → (w.pos g).isSome = true := by
    rw [List.all_eq_true]
    constructor
    · intro k g hg
      have := k _ (List.getElem_mem hg)
      simpa [Writer.pos, List.getElem?_eq_getElem hg] using this
    · intro k o ho
      obtain ⟨g, hg, rfl⟩ := List.getElem_of_mem ho
      have := k g hg
      simpa [Writer.pos, List.getElem?_eq_getElem hg] using this
  have e' : d.groups.all (·.2) = true ↔ ∀ g, g < d.groups.length → d.frozen g = true := by
    rw [List.all_eq_true]
    constructor
    · intro k g hg
      have := k _ (List.getElem_mem hg)
      simpa [Doc.frozen, List.getElem?_eq_getElem hg] using this
    · intro k o ho
      obtain ⟨g, hg, rfl⟩ := List.getElem_of_mem ho
      have := k g hg
      simpa [Doc.frozen, List.getElem?_eq_getElem hg] using this
  have e2 : d.groups.all (·.2) = w.groups.all (fun o => o.pos.isSome) := by
    rw [Bool.eq_iff_iff, e, e', hng]
    exact forall_congr' fun g => by rw [show d.frozen g = (w.pos g).isSome from I.fro g]
  simp only [Writer.step, Doc.step, Writer.close, e2]
  by_cases ha : w.groups.all (fun o => o.pos.isSome) = true
  · rw [ha]
    by_cases c : w.closed = true
    · rw [if_neg (by simp [c]), if_pos rfl]
      refine ⟨log, ?_⟩
      rw [show ({ d with closed := true } : Doc) = d by rw [c] at hc; cases d; simp at hc ⊢; exact hc]
      exact I
    · rw [if_pos (by simpa using c), if_pos rfl]
      exact ⟨log, I.close (e.1 ha)⟩
  · rw [if_neg (by simp [ha]), if_neg ha]
    exact ⟨log, I⟩

theorem good_step (h : Good w d) (op : Op) (hs : op.Sane) (hL : w.file.length < 2 ^ 63) : Good (w.step op) (d.step op) := by
  cases op with
  | addGroup g => exact h.addGroup g
  | createData g bs => exact h.create g bs hs
  | createParts g ps =>
    have := h.create g ps.flatten hs
    simp only [Writer.step, Doc.step] at this ⊢
    rw [createParts_eq]; exact this
  | addData g bs => exact h.add g bs hs
  | addParts g ps =>
    have := h.add g ps.flatten hs
    simp only [Writer.step, Doc.step, Writer.addData, Writer.addParts] at this ⊢
    rw [createParts_eq]; exact this
  | shareData g x => exact h.shareData g x
  | shareGroup g x => exact h.shareGroup g x
  | addEmptyGroup g =>
    simp only [Writer.step, Doc.step, h.open_eq g, Writer.addEmptyGroup]
    split
    · rename_i ho
      exact h.push g ho .noGroup (fun x hx => by cases hx) (fun x hx => by cases hx) _ rfl
    · exact h
  | addEmptyData g =>
    simp only [Writer.step, Doc.step, h.open_eq g, Writer.addEmptyData]
    split
    · rename_i ho
      exact h.push g ho .noData (fun x hx => by cases hx) (fun x hx => by cases hx) _ rfl
    · exact h
  | freeze g => exact h.freeze g
  | replaceData g i x => exact h.replace hL g i x
  | rewrite x bs off => exact h.rewrite hL x bs off hs
  | close => exact h.close


/-! ## Histories -/

theorem writeAt_le (f : File) (p : Nat) (bs : List UInt8) : f.length ≤ (writeAt f p bs).length := by
  simp only [writeAt, List.length_append, List.length_take, List.length_drop]
  first | omega | (split <;> simp <;> omega)

theorem append_le (w : Writer) (bs : List UInt8) : w.file.length ≤ (w.append bs).file.length := writeAt_le _ _ _

theorem createData_le (w : Writer) (g : Nat) (bs : List UInt8) : w.file.length ≤ (w.createData g bs).file.length := by
  unfold Writer.createData
  split
  · split
    · exact Nat.le_refl _
    · exact Nat.le_trans (append_le _ _) (append_le _ _)
  · exact Nat.le_refl _

theorem patch_le (v : Nat) (w : Writer) (a : Option (Nat × Nat)) : w.file.length ≤ (Writer.patch v w a).file.length := by
  unfold Writer.patch
  rcases a with _ | ⟨p, i⟩
  · exact writeAt_le _ _ _
  · simp only
    cases w.pos p with
    | none => exact Nat.le_refl _
    | some q => exact writeAt_le _ _ _

theorem fold_le (v : Nat) (ps : List (Option (Nat × Nat))) : ∀ w : Writer, w.file.length ≤ (ps.foldl (Writer.patch v) w).file.length := by
  induction ps with
  | nil => intro w; exact Nat.le_refl _
  | cons a ps ih => intro w; exact Nat.le_trans (patch_le v w a) (ih _)

/-- Files only grow. -/
theorem step_le (w : Writer) (op : Op) : w.file.length ≤ (w.step op).file.length := by
  cases op with
  | addGroup g => simp only [Writer.step, Writer.addGroup]; split <;> exact Nat.le_refl _
  | createData g bs => exact createData_le w g bs
  | createParts g ps => simp only [Writer.step]; rw [createParts_eq]; exact createData_le _ _ _
  | addData g bs =>
    simp only [Writer.step, Writer.addData]
    split
    · exact createData_le _ _ _
    · exact Nat.le_refl _
  | addParts g ps =>
    simp only [Writer.step, Writer.addParts, createParts_eq]
    split
    · exact createData_le _ _ _
    · exact Nat.le_refl _
  | shareData g x =>
    simp only [Writer.step, Writer.shareData]
    split
    · split <;> exact Nat.le_refl _
    · exact Nat.le_refl _
  | shareGroup g x =>
    simp only [Writer.step, Writer.shareGroup]
    split
    · split
      · split <;> exact Nat.le_refl _
      · exact Nat.le_refl _
    · exact Nat.le_refl _
  | addEmptyGroup g => simp only [Writer.step, Writer.addEmptyGroup]; split <;> exact Nat.le_refl _
  | addEmptyData g => simp only [Writer.step, Writer.addEmptyData]; split <;> exact Nat.le_refl _
  | freeze g =>
    simp only [Writer.step, Writer.freeze]
    split
    · refine Nat.le_trans ?_ (fold_le _ _ _)
      show w.file.length ≤ (if w.kids g = [] then w else _).file.length
      split
      · exact Nat.le_refl _
      · exact Nat.le_trans (append_le _ _) (append_le _ _)
    · exact Nat.le_refl _
  | replaceData g i x =>
    simp only [Writer.step, Writer.replaceData]
    split
    · exact Nat.le_refl _
    · split
      · exact Nat.le_refl _
      · split
        · cases w.pos g with
          | none => exact Nat.le_refl _
          | some q => exact writeAt_le _ _ _
        · exact Nat.le_refl _
  | rewrite x bs off =>
    simp only [Writer.step, Writer.rewrite]
    split
    · exact Nat.le_refl _
    · split
      · exact Nat.le_refl _
      · split
        · exact Nat.le_refl _
        · exact writeAt_le _ _ _
  | close =>
    simp only [Writer.step, Writer.close]
    split
    · exact writeAt_le _ _ _
    · exact Nat.le_refl _

theorem run_le (ops : List Op) : ∀ w : Writer, w.file.length ≤ (w.run ops).file.length := by
  induction ops with
  | nil => intro w; exact Nat.le_refl _
  | cons op ops ih => intro w; exact Nat.le_trans (step_le w op) (ih _)

theorem good_run (ops : List Op) (hs : ∀ op ∈ ops, op.Sane) (h : Good w d) (hL : (w.run ops).file.length < 2 ^ 63) :
    Good (w.run ops) (d.run ops) := by
  induction ops generalizing w d with
  | nil => exact h
  | cons op ops ih =>
    have hl : w.file.length < 2 ^ 63 := Nat.lt_of_le_of_lt (run_le (op :: ops) w) hL
    exact ih (fun o ho => hs o (by simp [ho])) (good_step h op (hs op (by simp)) hl) hL

/-! ## Reading -/

section
open Ogawa (IGroup IData readAt unle words explore readAll openArchive rec_le posOf_ge flatMap_le64_length readAt_count readAt_rec
  unle_le64 words_flatMap)
variable {v : View} {dv : DV} {log : List Ref}

theorem slot_lt (I : Inv v dv log) (hL : v.file.length < 2 ^ 63) (it : Item) : slotVal v.P v.dpos it < 2 ^ 64 := by
  cases it with
  | group h => have := layout_ok I hL h; simp only [slotVal]; omega
  | data x => exact Ogawa.data_lt _ (by rcases dpos_lt I hL x with h | h <;> omega)
  | noGroup => show 0 < 2 ^ 64; decide
  | noData => show emptyData < 2 ^ 64; decide

theorem open_group (I : Inv v dv log) (hL : v.file.length < 2 ^ 63) {g p : Nat} (hp : v.P g = some p) :
    ∃ ig, IGroup.open v.file p false = some ig ∧ ig.num = (v.K g).length ∧ ig.kids = v.K g ∧ ig.isLight = false := by
  have hkn : v.K g = [] ↔ dv.items g = [] := by rw [I.kids g]; simp
  rcases I.gpos g p hp with ⟨hk, rfl⟩ | ⟨hk, r, hr0, rfl⟩
  · have hk := hkn.2 hk
    exact ⟨⟨0, 0, []⟩, rfl, by simp [hk], by simp [hk], rfl⟩
  · have hk : v.K g ≠ [] := fun e => hk (hkn.1 e)
    have hr := recs_get (K := v.K) (b := dv.bytes) hr0
    simp only [recOf] at hr
    have hf := I.file
    rw [hf] at hL ⊢
    generalize hfl : flag v.closed = fl at *
    generalize hro : (v.P 0).getD 0 = root at *
    generalize hrs : recs v.K dv.bytes log = rs at *
    have hle := rec_le fl root rs r _ hr
    have hp16 := posOf_ge rs r
    have hfl' := flatMap_le64_length (v.K g)
    have hel : (Rec.group g (v.K g)).enc.length = 8 + (v.K g).length * 8 := by simp [Rec.enc, hfl']
    rw [hel] at hle
    have h1 : readAt (layout fl root rs) (posOf rs r) 8 = some (le64 (v.K g).length) := by
      rw [readAt_count _ _ _ _ _ hr]
      simp only [Rec.enc]
      rw [List.take_append_of_le_length (by simp), List.take_of_length_le (by simp)]
    have h2 : readAt (layout fl root rs) (posOf rs r + 8) ((v.K g).length * 8) = some ((v.K g).flatMap le64) := by
      rw [readAt_rec _ _ _ _ _ hr 8 _ (by omega)]
      simp only [Rec.enc]
      rw [List.drop_append_of_le_length (by simp), List.drop_of_length_le (by simp), List.nil_append,
        List.take_of_length_le (by omega)]
    have hu : unle (le64 (v.K g).length) = (v.K g).length := unle_le64 _ (by omega)
    have hw : words (v.K g).length ((v.K g).flatMap le64) = v.K g := by
      have := words_flatMap (v.K g) ?_ []
      · simpa using this
      · intro x hx
        rw [I.kids g] at hx
        obtain ⟨it, -, rfl⟩ := List.mem_map.1 hx
        exact slot_lt I (by rw [hf]; exact hL) it
    refine ⟨⟨posOf rs r, (v.K g).length, v.K g⟩, ?_, rfl, rfl, by simp [IGroup.isLight, hk]⟩
    unfold IGroup.open
    rw [if_neg (by omega), h1]
    simp only [Option.bind_eq_bind, Option.bind_some, Bool.not_false, Bool.true_or, if_true, hu, h2, hw]

theorem mapM_items {β} (n : Nat) (its : List Item) (hn : n = its.length) (F : Nat → Option β) (T : Item → β)
    (h : ∀ i it, its[i]? = some it → F i = some (T it)) : (List.range n).mapM F = some (its.map T) := by
  have := Ogawa.mapM_some (List.range n) F (fun i => T (its.getD i .noData)) ?_
  · rw [this]
    congr 1
    apply List.ext_getElem?
    intro i
    simp only [List.getElem?_map]
    by_cases hi : i < n
    · rw [List.getElem?_range hi, List.getElem?_eq_getElem (by omega : i < its.length)]
      simp [List.getD, List.getElem?_eq_getElem (by omega : i < its.length)]
    · rw [List.getElem?_eq_none (by simp; omega), List.getElem?_eq_none (by omega : its.length ≤ i)]; rfl
  · intro i hi
    have hi' : i < its.length := by rw [← hn]; simpa using hi
    rw [h i its[i] (List.getElem?_eq_getElem hi')]
    simp [List.getD, List.getElem?_eq_getElem hi']

theorem explore_group (h : Good w d) (hL : w.file.length < 2 ^ 63) (n : Nat) :
    ∀ {g p : Nat} {ig : IGroup}, w.pos g = some p → IGroup.open w.file p false = some ig →
      explore w.file false n ig = some (d.treeOf n g) := by
  obtain ⟨log, I⟩ := h
  induction n with
  | zero => intros; rfl
  | succ n ih =>
    intro g p ig hp hig
    obtain ⟨ig', h1, h2, h3, h4⟩ := open_group I hL hp
    rw [show w.view.file = w.file from rfl, hig] at h1
    have := Option.some.inj h1
    subst this
    have hK : w.view.K g = (d.items g).map (slotVal w.pos w.view.dpos) := I.kids g
    simp only [explore, Doc.treeOf]
    rw [mapM_items _ (d.items g) (by rw [h2, hK]; simp) _ _ ?_]
    · rfl
    · intro i it hit
      have hk : ig.kids[i]? = some (slotVal w.pos w.view.dpos it) := by rw [h3, hK, List.getElem?_map, hit]; rfl
      rw [Ogawa.getGroup_full _ _ _ _ h4, Ogawa.getData_full _ _ _ h4, hk]
      dsimp only
      cases it with
      | data x =>
        generalize hs : slotVal w.pos w.view.dpos (.data x) = s
        have hs' : s = w.view.dpos x ||| emptyData := hs.symm
        clear hs
        subst hs'
        by_cases hb : d.bytes x = []
        · rw [show w.view.dpos x = 0 from I.dnil x hb]
          show _ = some (Ogawa.Tree.data (d.bytes x))
          rw [hb]
          rfl
        · obtain ⟨r, hr, e⟩ := I.drec x hb
          have hlt : w.view.dpos x < 2 ^ 63 := by
            have := dpos_lt I hL x
            rcases this with k | k
            · have : w.view.file.length < 2 ^ 63 := hL
              omega
            · omega
          have hd := Ogawa.data_and (w.view.dpos x) hlt
          have hfile : w.file = layout (flag w.closed) ((w.pos 0).getD 0) (recs w.kids d.bytes log) := I.file
          have hrd := recs_get (K := w.kids) (b := d.bytes) hr
          simp only [recOf] at hrd
          have hL' := hL
          rw [hfile] at hL'
          obtain ⟨dd, a, -, b⟩ := Ogawa.readAll_data hL' hrd hb
          rw [← hfile] at a b
          rw [if_neg hd, if_pos hd, e, show w.view.K = w.kids from rfl, show d.view.bytes = d.bytes from rfl, a]
          simp [b]
      | noData =>
        generalize hs : slotVal w.pos w.view.dpos .noData = s
        have hs' : s = emptyData := hs.symm
        clear hs
        subst hs'
        rfl
      | noGroup =>
        simp only [slotVal, Nat.zero_and, if_true, IGroup.open, Option.map_some]
        cases n <;> rfl
      | group k =>
        generalize hs : slotVal w.pos w.view.dpos (.group k) = s
        have hs' : s = (w.pos k).getD 0 := hs.symm
        clear hs
        subst hs'
        have hfr : d.frozen k = (w.pos k).isSome := I.fro k
        have hlt : (w.pos k).getD 0 < 2 ^ 63 := layout_ok I hL k
        show _ = some (if d.frozen k = true then d.treeOf n k else .group [])
        rw [Ogawa.pos_and _ hlt, if_pos rfl, hfr]
        cases hq : w.pos k with
        | none =>
          simp only [Option.getD_none, IGroup.open, if_true, Option.map_some, Option.isSome_none]
          cases n <;> rfl
        | some q =>
          obtain ⟨ik, a, -⟩ := open_group I hL hq
          simp only [Option.getD_some, Option.isSome_some, if_true]
          rw [show IGroup.open w.file q false = some ik from a]
          exact ih hq a

/-- What a reader sees at any time. -/
theorem good_read (h : Good w d) (hL : w.file.length < 2 ^ 63) :
    ∃ root, openArchive w.file = .archive d.closed root ∧ ∀ light n,
      explore w.file light n root = some (if d.frozen 0 then d.treeOf n 0 else .group []) := by
  have hex := fun n g p ig => @explore_group w d h hL n g p ig
  obtain ⟨log, I⟩ := h
  have hfile : w.file = layout (flag w.closed) ((w.pos 0).getD 0) (recs w.kids d.bytes log) := I.file
  have hfr : d.frozen 0 = (w.pos 0).isSome := I.fro 0
  have hopen : ∃ ig, IGroup.open w.file ((w.pos 0).getD 0) false = some ig ∧
      ∀ n, explore w.file false n ig = some (if d.frozen 0 then d.treeOf n 0 else .group []) := by
    cases hp : w.pos 0 with
    | none =>
      refine ⟨⟨0, 0, []⟩, rfl, fun n => ?_⟩
      rw [hfr, hp]
      cases n <;> rfl
    | some p =>
      obtain ⟨ig, a, -⟩ := open_group I hL hp
      refine ⟨ig, a, fun n => ?_⟩
      rw [hfr, hp]
      exact hex n 0 p ig hp a
  obtain ⟨ig, h1, h2⟩ := hopen
  refine ⟨ig, ?_, fun light n => ?_⟩
  · have hs : (w.pos 0).getD 0 < 2 ^ 63 := layout_ok I hL 0
    rw [← show w.closed = d.closed from I.closed]
    generalize (w.pos 0).getD 0 = root at *
    have hfl : decide (flag w.closed = 255) = w.closed := by
      unfold flag; cases w.closed <;> rfl
    rw [hfile] at h1 ⊢
    have hcl : Ogawa.Opened.archive w.closed ig = .archive (decide (flag w.closed = 255)) ig := by rw [hfl]
    rw [hcl]
    clear hcl hfl
    generalize flag w.closed = fl at *
    generalize recs w.kids d.bytes log = rs at *
    have hl16 : 16 ≤ (layout fl root rs).length := by simp [layout]
    have htake : (layout fl root rs).take 16 = Ogawa.hdr fl root := by
      rw [layout, List.take_append_of_le_length (by simp), List.take_of_length_le (by simp)]
    unfold openArchive
    rw [htake, show 16 - (layout fl root rs).length = 0 from by omega]
    simp only [List.replicate_zero, List.append_nil]
    rw [if_pos (by simp [Ogawa.hdr])]
    have hv : ((Ogawa.hdr fl root).getD 6 0).toNat * 256 + ((Ogawa.hdr fl root).getD 7 0).toNat = 1 := by
      have h6 : (Ogawa.hdr fl root).getD 6 0 = 0 := rfl
      have h7 : (Ogawa.hdr fl root).getD 7 0 = 1 := rfl
      rw [h6, h7]; rfl
    rw [hv]
    have hu : unle ((Ogawa.hdr fl root).drop 8) = root := by
      simp only [Ogawa.hdr, List.cons_append, List.nil_append, List.drop_succ_cons, List.drop_zero]
      exact unle_le64 _ (by omega)
    have h5 : (Ogawa.hdr fl root)[5]? = some fl := rfl
    rw [hu, h1, h5]
    simp
  · cases light with
    | false => exact h2 n
    | true => exact Ogawa.explore_light n h1 ⟨rfl, fun i => ⟨fun _ => rfl, rfl⟩⟩ (h2 n)

end
end
end F3D.OgawaGraph

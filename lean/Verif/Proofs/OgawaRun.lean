import Verif.Proofs.OgawaRead

/-! Runs of the Ogawa writer: the invariant along a program, and crash points. -/

namespace F3D.Ogawa

/-- The file represents the document, and is closed only when every group is frozen. -/
def Good (w : Writer) (d : Doc) : Prop :=
  Rep w d ∧ (w.closed = true → ∀ (g : Nat) o, w.groups[g]? = some o → o.pos.isSome = true)

theorem good_init : Good Writer.init Doc.init := ⟨rep_init, by intro h; simp [Writer.init, Writer.append, Writer.emit] at h⟩

theorem closed_not_open {w : Writer} {d} (h : Good w d) (hc : w.closed = true) (g : Nat) : w.isOpen g = false := by
  rw [Bool.eq_false_iff]
  intro ho
  obtain ⟨o, h1, h2⟩ := (isOpen_iff w g).1 ho
  have := h.2 hc g o h1
  rw [h2] at this; simp at this

theorem allFrozen_iff {gs d rs} (hI : Inv gs d rs) :
    d.allFrozen = true ↔ ∀ (g : Nat) o, gs[g]? = some o → o.pos.isSome = true := by
  simp only [Doc.allFrozen, List.all_eq_true]
  constructor
  · intro h g o hg
    have hlt : g < d.groups.length := by rw [← hI.len]; exact lt_of_getElem? hg
    have := h _ (List.getElem_mem hlt)
    have h2 := hI.fro g o hg
    simp only [Doc.frozen, List.getElem?_eq_getElem hlt, Option.map_some, Option.getD_some] at h2
    rw [← h2]; exact this
  · intro h x hx
    obtain ⟨g, hlt, rfl⟩ := List.getElem_of_mem hx
    have hlt' : g < gs.length := by rw [hI.len]; exact hlt
    have h1 := h g _ (List.getElem?_eq_getElem hlt')
    have h2 := hI.fro g _ (List.getElem?_eq_getElem hlt')
    simp only [Doc.frozen, List.getElem?_eq_getElem hlt, Option.map_some, Option.getD_some] at h2
    rw [h2]; exact h1

theorem good_step {w : Writer} {d} (h : Good w d) (op : Op) (hop : ∀ g, op ≠ .addData g []) :
    Good (w.step op) (d.step op) := by
  cases hc : w.closed with
  | true =>
    have hno := closed_not_open h hc
    have hdo : ∀ g, d.isOpen g = false := by
      obtain ⟨⟨rs, hI, -⟩, -⟩ := h
      intro g; rw [← open_eq hI g]; exact hno g
    -- nothing happens any more
    have hw : w.step op = w := by
      cases op with
      | addGroup g => simp [Writer.step, Writer.addGroup, hno g]
      | addData g bs => simp [Writer.step, Writer.addData, hno g]
      | addEmptyGroup g => simp [Writer.step, Writer.addEmptyGroup, hno g]
      | addEmptyData g => simp [Writer.step, Writer.addEmptyData, hno g]
      | freeze g =>
        simp only [Writer.step, Writer.freeze]
        rcases hg : w.groups[g]? with _ | o
        · rfl
        · have := h.2 hc g o hg
          rcases hp : o.pos with _ | p
          · rw [hp] at this; simp at this
          · simp only [hp]
      | close => simp [Writer.step, Writer.close, hc]
    have hd : d.step op = d := by
      cases op with
      | addGroup g => simp [Doc.step, hdo g]
      | addData g bs => simp [Doc.step, hdo g]
      | addEmptyGroup g => simp [Doc.step, hdo g]
      | addEmptyData g => simp [Doc.step, hdo g]
      | freeze g =>
        simp only [Doc.step]
        rw [modify_eq_self]
        intro x hx
        have := hdo g
        simp only [Doc.isOpen, hx, Option.map_some, Option.getD_some] at this
        rw [Bool.not_eq_false'] at this
        rw [← this]
      | close => rfl
    rw [hw, hd]; exact h
  | false =>
    have hkeep : ∀ w' : Writer, w'.closed = w.closed →
        (w'.closed = true → ∀ (g : Nat) o, w'.groups[g]? = some o → o.pos.isSome = true) := by
      intro w' e e'; rw [e, hc] at e'; simp at e'
    cases op with
    | addGroup g =>
      refine ⟨rep_addGroup h.1 g, hkeep _ ?_⟩
      simp only [Writer.step, Writer.addGroup]; split <;> rfl
    | addData g bs =>
      refine ⟨rep_addData h.1 g bs (fun e => hop g (by rw [e])), hkeep _ ?_⟩
      simp only [Writer.step, Writer.addData]; split
      · split <;> rfl
      · rfl
    | addEmptyGroup g =>
      refine ⟨?_, hkeep _ ?_⟩
      · simp only [Writer.step, Writer.addEmptyGroup, Doc.step]
        have := open_eq (Classical.choose_spec h.1).1 g
        rw [← this]
        split
        · rename_i ho; exact rep_push h.1 g 0 .emptyGroup ho (Or.inr ⟨rfl, rfl⟩)
        · exact h.1
      · simp only [Writer.step, Writer.addEmptyGroup]; split <;> rfl
    | addEmptyData g =>
      refine ⟨?_, hkeep _ ?_⟩
      · simp only [Writer.step, Writer.addEmptyData, Doc.step]
        have := open_eq (Classical.choose_spec h.1).1 g
        rw [← this]
        split
        · rename_i ho; exact rep_push h.1 g emptyData .emptyData ho (Or.inl ⟨rfl, rfl⟩)
        · exact h.1
      · simp only [Writer.step, Writer.addEmptyData]; split <;> rfl
    | freeze g =>
      refine ⟨rep_freeze h.1 hc g, hkeep _ ?_⟩
      simp only [Writer.step, Writer.freeze]
      split
      · rfl
      · split
        · rfl
        · split
          · split <;> rfl
          · split
            · split
              · split <;> rfl
              · split <;> rfl
            · split <;> rfl
    | close =>
      refine ⟨rep_close h.1, ?_⟩
      simp only [Writer.step, Writer.close]
      split
      · rename_i ha
        intro _ g o hg
        simp only [Bool.and_eq_true, List.all_eq_true] at ha
        exact ha.1 o (List.mem_of_getElem? hg)
      · intro e; rw [hc] at e; simp at e

theorem good_run (ops : List Op) (hne : ∀ g, Op.addData g [] ∉ ops) {w : Writer} {d : Doc} (h : Good w d) :
    Good (w.run ops) (d.run ops) := by
  induction ops generalizing w d with
  | nil => exact h
  | cons op ops ih =>
    simp only [Writer.run, Doc.run, List.foldl_cons]
    refine ih (fun g hg => hne g (by simp [hg])) (good_step h op ?_)
    intro g e
    exact hne g (by simp [e])

/-- What the reader sees at any time. -/
theorem good_read {w : Writer} {d : Doc} (h : Good w d) (hL : w.file.length < 2 ^ 63) :
    ∃ root, openArchive w.file = .archive w.closed root ∧
      root.num = (if d.frozen 0 then (d.items 0).length else 0) ∧
      ∀ n, explore w.file false n root = some (if d.frozen 0 then treeOf d n 0 else .group []) ∧
        explore w.file true n root = some (if d.frozen 0 then treeOf d n 0 else .group []) := by
  obtain ⟨⟨rs, hI, hf⟩, -⟩ := h
  rw [hf] at hL ⊢
  obtain ⟨ig, h1, h2⟩ := open_layout hI hL
  have hfl : decide (flagOf w = 255) = w.closed := by
    unfold flagOf; cases w.closed <;> rfl
  rw [hfl] at h1
  refine ⟨ig, h1, ?_, ?_⟩
  · obtain ⟨o, ho, -⟩ := hI.root
    have hfr := hI.fro 0 o ho
    rcases hp : o.pos with _ | p
    · have hs : slotOf w.groups 0 = 0 := by simp [slotOf, ho, hp]
      rw [hs] at h2
      simp only [IGroup.open, if_true, Option.some.injEq] at h2
      rw [hfr, hp, ← h2]; rfl
    · have hs : slotOf w.groups 0 = p := by simp [slotOf, ho, hp]
      obtain ⟨ig', a, b, -⟩ := open_frozen hI hL ho hp
      rw [hs] at h2 a
      rw [h2] at a; simp only [Option.some.injEq] at a; subst a
      rw [hfr, hp, b, hI.kidsLen 0 o ho]; rfl
  · intro n
    have key : explore (layout (flagOf w) (slotOf w.groups 0) rs) false n ig =
        some (if d.frozen 0 then treeOf d n 0 else .group []) := by
      obtain ⟨o, ho, -⟩ := hI.root
      have hfr := hI.fro 0 o ho
      rcases hp : o.pos with _ | p
      · have hs : slotOf w.groups 0 = 0 := by simp [slotOf, ho, hp]
        rw [hfr, hp]
        have h2' := h2
        rw [hs] at h2'
        simp only [IGroup.open, if_true, Option.some.injEq] at h2'
        subst h2'
        cases n <;> rfl
      · have hs : slotOf w.groups 0 = p := by simp [slotOf, ho, hp]
        rw [hfr, hp, explore_frozen hI hL n ho hp (by rw [← hs]; exact h2)]
        rfl
    exact ⟨key, explore_light n h2 ⟨rfl, fun i => ⟨fun _ => rfl, rfl⟩⟩ key⟩

/-! ## Crash points -/

/-- Groups are frozen after the groups inside them. -/
def freezesInOrder (d : Doc) : List Op → Bool
  | [] => true
  | op :: ops =>
    (match op with
      | .freeze g => (d.items g).all (fun it => match it with
        | .group h => d.frozen h
        | _ => true)
      | _ => true) && freezesInOrder (d.step op) ops

theorem applyWrites_snoc (ws : List Write) (x : Write) : applyWrites (ws ++ [x]) = writeAt (applyWrites ws) x.pos x.bytes := by
  simp [applyWrites]

/-- Bytes before the position written are kept. -/
theorem writeAt_take (f : File) (p : Nat) (bs : List UInt8) (k : Nat) (hk : k ≤ p) (hf : k ≤ f.length) :
    (writeAt f p bs).take k = f.take k ∧ k ≤ (writeAt f p bs).length := by
  unfold writeAt
  constructor
  · rw [List.append_assoc, List.take_append_of_le_length (by simp; omega), List.take_take,
      List.take_append_of_le_length (by omega)]
    congr 1; omega
  · simp; omega

theorem headed_writes (tl : List Write) (h : ∀ x ∈ tl, 16 ≤ x.pos) :
    (applyWrites (⟨0, header⟩ :: tl)).take 16 = header ∧ 16 ≤ (applyWrites (⟨0, header⟩ :: tl)).length := by
  have key : ∀ f : File, f.take 16 = header ∧ 16 ≤ f.length →
      (tl.foldl (fun f w => writeAt f w.pos w.bytes) f).take 16 = header ∧
        16 ≤ (tl.foldl (fun f w => writeAt f w.pos w.bytes) f).length := by
    induction tl with
    | nil => intro f hf; exact hf
    | cons x tl ih =>
      intro f hf
      obtain ⟨a, b⟩ := writeAt_take f x.pos x.bytes 16 (h x (by simp)) hf.2
      exact ih (fun y hy => h y (by simp [hy])) _ ⟨by rw [a, hf.1], b⟩
  exact key (writeAt [] 0 header) ⟨rfl, by decide⟩

theorem open_header (f : File) (h : f.take 16 = header) (hl : 16 ≤ f.length) :
    openArchive f = .archive false ⟨0, 0, []⟩ := by
  unfold openArchive
  rw [h, show 16 - f.length = 0 from by omega]
  simp only [List.replicate_zero, List.append_nil]
  have h1 : header.take 5 = [79, 103, 97, 119, 97] := by decide
  have h2 : (header.getD 6 0).toNat * 256 + (header.getD 7 0).toNat = 1 := by decide
  have h3 : unle (header.drop 8) = 0 := by decide
  have h4 : decide (header[5]? = some 255) = false := by decide
  rw [if_pos h1, h2, h3, h4]
  simp [IGroup.open]

/-- The write log up to the end of the document. -/
structure Crash (w : Writer) (d : Doc) : Prop where
  file : w.file = applyWrites w.writes
  order : ∀ (p i h : Nat), d.frozen p = true → (d.items p)[i]? = some (.group h) → d.frozen h = true
  log : (d.frozen 0 = false ∧ w.closed = false ∧ ∃ tl, w.writes = ⟨0, header⟩ :: tl ∧ ∀ x ∈ tl, 16 ≤ x.pos) ∨
    (d.allFrozen = true ∧ ∃ tl p rs, (∀ x ∈ tl, 16 ≤ x.pos) ∧ Inv w.groups d rs ∧
      applyWrites (⟨0, header⟩ :: tl ++ [⟨8, le64 p⟩]) = layout 0 (slotOf w.groups 0) rs ∧
      ((w.closed = false ∧ w.writes = ⟨0, header⟩ :: tl ++ [⟨8, le64 p⟩]) ∨
        (w.closed = true ∧ w.writes = ⟨0, header⟩ :: tl ++ [⟨8, le64 p⟩] ++ [⟨5, [255]⟩])))

theorem crash_init : Crash Writer.init Doc.init := by
  refine ⟨rfl, ?_, Or.inl ⟨rfl, rfl, [], rfl, by simp⟩⟩
  intro p i h _ hi
  have : Doc.init.items p = [] := by cases p <;> rfl
  rw [this] at hi; simp at hi

theorem noop_writer {w : Writer} (hno : ∀ g, w.isOpen g = false) (op : Op) (hop : op ≠ .close) : w.step op = w := by
  cases op with
  | addGroup g => simp [Writer.step, Writer.addGroup, hno g]
  | addData g bs => simp [Writer.step, Writer.addData, hno g]
  | addEmptyGroup g => simp [Writer.step, Writer.addEmptyGroup, hno g]
  | addEmptyData g => simp [Writer.step, Writer.addEmptyData, hno g]
  | freeze g =>
    simp only [Writer.step, Writer.freeze]
    rcases hg : w.groups[g]? with _ | o
    · rfl
    · have := hno g
      simp only [Writer.isOpen, hg] at this
      rcases hp : o.pos with _ | p
      · rw [hp] at this; simp at this
      · simp only [hp]
  | close => exact absurd rfl hop

theorem noop_doc {d : Doc} (hdo : ∀ g, d.isOpen g = false) (op : Op) : d.step op = d := by
  cases op with
  | addGroup g => simp [Doc.step, hdo g]
  | addData g bs => simp [Doc.step, hdo g]
  | addEmptyGroup g => simp [Doc.step, hdo g]
  | addEmptyData g => simp [Doc.step, hdo g]
  | freeze g =>
    simp only [Doc.step]
    rw [modify_eq_self]
    intro x hx
    have := hdo g
    simp only [Doc.isOpen, hx, Option.map_some, Option.getD_some] at this
    rw [Bool.not_eq_false'] at this
    rw [← this]
  | close => rfl

theorem frozen_lt {d : Doc} {g : Nat} (h : d.frozen g = true) : g < d.groups.length := by
  rcases Nat.lt_or_ge g d.groups.length with h1 | h1
  · exact h1
  · simp [Doc.frozen, List.getElem?_eq_none h1] at h

theorem open_not_frozen {d : Doc} {g : Nat} (h : d.isOpen g = true) : d.frozen g = false ∧ g < d.groups.length := by
  unfold Doc.isOpen at h
  unfold Doc.frozen
  rcases hx : d.groups[g]? with _ | x
  · simp [hx] at h
  · simp only [hx, Option.map_some, Option.getD_some, Bool.not_eq_true'] at h
    exact ⟨by simp [h], lt_of_getElem? hx⟩

/-- Adding to an open group keeps the order of freezing. -/
theorem order_push {d d' : Doc} (h : ∀ (p i k : Nat), d.frozen p = true → (d.items p)[i]? = some (.group k) → d.frozen k = true)
    (g : Nat) (hg : d.frozen g = false) (hf : ∀ j, d'.frozen j = d.frozen j) (hi : ∀ j, j ≠ g → d'.items j = d.items j) :
    ∀ (p i k : Nat), d'.frozen p = true → (d'.items p)[i]? = some (.group k) → d'.frozen k = true := by
  intro p i k h1 h2
  rw [hf] at h1 ⊢
  have hp : p ≠ g := by intro e; rw [e, hg] at h1; simp at h1
  rw [hi p hp] at h2
  exact h p i k h1 h2

theorem newGroup_doc (d : Doc) (g : Nat) (it : Item) (hg : g < d.groups.length) :
    (∀ j, (⟨(d.push g it).groups ++ [([], false)]⟩ : Doc).frozen j = d.frozen j) ∧
    (∀ j, (⟨(d.push g it).groups ++ [([], false)]⟩ : Doc).items j = (d.push g it).items j) := by
  constructor
  · intro j
    rw [← frozen_push d g j it]
    simp only [Doc.frozen]
    rw [List.getElem?_append]
    split
    · rfl
    · rename_i hj
      rw [List.getElem?_eq_none (by omega : (d.push g it).groups.length ≤ j)]
      generalize j - (d.push g it).groups.length = k
      cases k <;> simp
  · intro j
    simp only [Doc.items]
    rw [List.getElem?_append]
    split
    · rfl
    · rename_i hj
      rw [List.getElem?_eq_none (by omega : (d.push g it).groups.length ≤ j)]
      generalize j - (d.push g it).groups.length = k
      cases k <;> simp

theorem emit_file {w : Writer} (h : w.file = applyWrites w.writes) (p bs) :
    (w.emit p bs).file = applyWrites (w.emit p bs).writes := by
  simp only [Writer.emit]
  rw [applyWrites_snoc, h]

theorem log_append {w w' : Writer} (h16 : 16 ≤ w.file.length) (pre : List Write)
    (hpre : ∀ x ∈ pre, w.file.length ≤ x.pos) (hw : w'.writes = w.writes ++ pre)
    (hl : ∃ tl, w.writes = ⟨0, header⟩ :: tl ∧ ∀ x ∈ tl, 16 ≤ x.pos) :
    ∃ tl, w'.writes = ⟨0, header⟩ :: tl ∧ ∀ x ∈ tl, 16 ≤ x.pos := by
  obtain ⟨tl, h1, h2⟩ := hl
  refine ⟨tl ++ pre, by rw [hw, h1]; rfl, ?_⟩
  intro x hx
  rcases List.mem_append.1 hx with h | h
  · exact h2 x h
  · have := hpre x h; omega

/-- `freeze` writes the table of the group, then the root pointer or nothing. -/
theorem freeze_log {w : Writer} {d rs} (hI : Inv w.groups d rs) (hf : w.file = applyWrites w.writes) (g : Nat) (o : OGroup)
    (hg : w.groups[g]? = some o) (ho : o.pos = none)
    (hpar : ∀ p i, o.parent = some (p, i) → d.frozen p = false) :
    (w.freeze g).file = applyWrites (w.freeze g).writes ∧ ∃ pre v, (∀ x ∈ pre, w.file.length ≤ x.pos) ∧
      (w.freeze g).writes = w.writes ++ pre ++ (if g = 0 then [⟨8, le64 v⟩] else []) := by
  unfold Writer.freeze
  rw [hg]
  simp only [ho]
  generalize (if o.kids = [] then (0 : Nat) else w.file.length) = v
  have h1 : ∃ pre w1, (if o.kids = [] then w else (w.append (le64 o.kids.length)).append (o.kids.flatMap le64)) = w1 ∧
      (∀ x ∈ pre, w.file.length ≤ x.pos) ∧ w1.writes = w.writes ++ pre ∧ w1.file = applyWrites w1.writes ∧ w1.groups = w.groups := by
    by_cases hk : o.kids = []
    · exact ⟨[], w, by simp [hk], by simp, by simp, hf, rfl⟩
    · refine ⟨[⟨w.file.length, le64 o.kids.length⟩, ⟨(w.append (le64 o.kids.length)).file.length, o.kids.flatMap le64⟩],
        (w.append (le64 o.kids.length)).append (o.kids.flatMap le64), by simp [hk], ?_, ?_, ?_, rfl⟩
      · intro x hx
        simp only [List.mem_cons, List.not_mem_nil, or_false] at hx
        rcases hx with rfl | rfl
        · exact Nat.le_refl _
        · rw [append_file]; simp
      · simp [Writer.append, Writer.emit]
      · exact emit_file (emit_file hf _ _) _ _
  obtain ⟨pre, w1, e1, hpre, hw1, hf1, hg1⟩ := h1
  rw [e1]
  rcases hp : o.parent with _ | ⟨p, i⟩
  · have hg0 := hI.nonroot g o hg hp
    dsimp only
    refine ⟨emit_file (by exact hf1) _ _, pre, v, hpre, ?_⟩
    simp only [Writer.emit, hw1, if_pos hg0]
  · obtain ⟨hpg, -⟩ := hI.par g o p i hg hp
    have hg0 : g ≠ 0 := by omega
    dsimp only
    have hplt : p < w.groups.length := by have := lt_of_getElem? hg; omega
    have hop : w.groups[p]? = some w.groups[p] := List.getElem?_eq_getElem hplt
    have hop2 : (w1.groups.modify g (fun o => { o with pos := some v }))[p]? = some w.groups[p] := by
      rw [hg1, List.getElem?_modify, hop]
      have e : ¬ g = p := by omega
      simp only [e, if_false, Option.map_eq_map, Option.map_some]
    have hnp : w.groups[p].pos = none := by
      have := hI.fro p _ hop
      rw [hpar p i hp] at this
      rcases hh : w.groups[p].pos with _ | q
      · rfl
      · rw [hh] at this; simp at this
    rw [hop2]
    simp only [hnp]
    exact ⟨hf1, pre, v, hpre, by rw [hw1, if_neg hg0, List.append_nil]⟩

theorem crash_step {w : Writer} {d} (hG : Good w d) (hC : Crash w d) (op : Op) (hop : ∀ g, op ≠ .addData g [])
    (hord : ∀ g, op = .freeze g → ∀ (i h : Nat), (d.items g)[i]? = some (.group h) → d.frozen h = true) :
    Crash (w.step op) (d.step op) := by
  obtain ⟨⟨rs, hI, hf⟩, hcl⟩ := hG
  rcases hC.log with ⟨hr, hc, hl⟩ | ⟨hall, tl, p, rs', htl, hI', hlay, hw⟩
  · -- the root is open
    have h16 : 16 ≤ w.file.length := by rw [hf, layout_length]; exact posOf_ge _ _
    have hadd : ∀ g it, w.isOpen g = true → (∀ j, (d.push g it).frozen j = d.frozen j) ∧
        (∀ j, j ≠ g → (d.push g it).items j = d.items j) ∧ d.frozen g = false := by
      intro g it ho
      rw [open_eq hI g] at ho
      obtain ⟨a, b⟩ := open_not_frozen ho
      exact ⟨fun j => frozen_push d g j it, fun j hj => by rw [items_push d g j it b, if_neg hj], a⟩
    cases op with
    | addGroup g =>
      simp only [Writer.step, Writer.addGroup, Doc.step, ← open_eq hI g]
      by_cases ho : w.isOpen g = true
      · rw [if_pos ho, if_pos ho]
        obtain ⟨a, b, c⟩ := hadd g (.group d.groups.length) ho
        have hlt : g < d.groups.length := by rw [open_eq hI g] at ho; exact (open_not_frozen ho).2
        obtain ⟨e1, e2⟩ := newGroup_doc d g (.group d.groups.length) hlt
        refine ⟨hC.file, ?_, Or.inl ⟨by rw [e1, hr], hc, hl⟩⟩
        exact order_push hC.order g c e1 (fun j hj => by rw [e2, b j hj])
      · rw [if_neg ho, if_neg ho]; exact hC
    | addData g bs =>
      have hb : bs.length ≠ 0 := by
        intro e; exact hop g (by rw [List.length_eq_zero_iff.1 e])
      simp only [Writer.step, Writer.addData, Doc.step, ← open_eq hI g]
      by_cases ho : w.isOpen g = true
      · rw [if_pos ho, if_pos ho, if_neg hb]
        obtain ⟨a, b, c⟩ := hadd g (.data bs) ho
        refine ⟨emit_file (emit_file hC.file _ _) _ _, order_push hC.order g c a b, Or.inl ⟨by rw [a, hr], hc, ?_⟩⟩
        refine log_append h16 [⟨w.file.length, le64 bs.length⟩, ⟨(w.append (le64 bs.length)).file.length, bs⟩] ?_ ?_ hl
        · intro x hx
          simp only [List.mem_cons, List.not_mem_nil, or_false] at hx
          rcases hx with rfl | rfl
          · exact Nat.le_refl _
          · rw [append_file]; simp
        · simp [Writer.append, Writer.emit, Writer.pushKid]
      · rw [if_neg ho, if_neg ho]; exact hC
    | addEmptyGroup g =>
      simp only [Writer.step, Writer.addEmptyGroup, Doc.step, ← open_eq hI g]
      by_cases ho : w.isOpen g = true
      · rw [if_pos ho, if_pos ho]
        obtain ⟨a, b, c⟩ := hadd g .emptyGroup ho
        exact ⟨hC.file, order_push hC.order g c a b, Or.inl ⟨by rw [a, hr], hc, hl⟩⟩
      · rw [if_neg ho, if_neg ho]; exact hC
    | addEmptyData g =>
      simp only [Writer.step, Writer.addEmptyData, Doc.step, ← open_eq hI g]
      by_cases ho : w.isOpen g = true
      · rw [if_pos ho, if_pos ho]
        obtain ⟨a, b, c⟩ := hadd g .emptyData ho
        exact ⟨hC.file, order_push hC.order g c a b, Or.inl ⟨by rw [a, hr], hc, hl⟩⟩
      · rw [if_neg ho, if_neg ho]; exact hC
    | freeze g =>
      by_cases ho : w.isOpen g = true
      · obtain ⟨o, hg, hp⟩ := (isOpen_iff w g).1 ho
        have hdo : d.isOpen g = true := by rw [← open_eq hI g]; exact ho
        obtain ⟨hfg, hlt⟩ := open_not_frozen hdo
        have hpar : ∀ p i, o.parent = some (p, i) → d.frozen p = false := by
          intro p i hpi
          obtain ⟨-, hit⟩ := hI.par g o p i hg hpi
          rw [Bool.eq_false_iff]
          intro e
          have := hC.order p i g e hit
          rw [hfg] at this; simp at this
        obtain ⟨k1, pre, v, k2, k3⟩ := freeze_log hI hC.file g o hg hp hpar
        have hfr := fun j => frozen_freeze d g j hlt
        have hit := items_freeze d g
        have hord' : ∀ (p i h : Nat), (d.step (.freeze g)).frozen p = true →
            ((d.step (.freeze g)).items p)[i]? = some (.group h) → (d.step (.freeze g)).frozen h = true := by
          intro p i h h1 h2
          rw [hit] at h2
          rw [hfr] at h1 ⊢
          split
          · rfl
          · by_cases e : p = g
            · rw [e] at h2; exact hord g rfl i h h2
            · rw [if_neg e] at h1; exact hC.order p i h h1 h2
        refine ⟨k1, hord', ?_⟩
        by_cases hg0 : g = 0
        · -- the document is complete
          subst hg0
          rw [if_pos rfl] at k3
          obtain ⟨rs2, hI2, hf2⟩ := rep_freeze ⟨rs, hI, hf⟩ hc 0
          obtain ⟨tl, h1, h2⟩ := hl
          have hc2 : (w.freeze 0).closed = false := by
            have := (good_step ⟨⟨rs, hI, hf⟩, hcl⟩ (.freeze 0) (by simp)).2
            rcases Bool.eq_false_or_eq_true (w.freeze 0).closed with e | e
            · exfalso
              have hlog := hf2
              rw [flagOf, e] at hlog
              simp only [if_true] at hlog
              -- the flag byte is not written by freeze
              simp only [Writer.freeze, hg, hp] at e
              rcases hpp : o.parent with _ | ⟨q, i⟩
              · simp only [hpp, Writer.emit] at e
                split at e <;> simp [Writer.append, Writer.emit, hc] at e
              · have := (hI.par 0 o q i hg hpp).1
                omega
            · exact e
          have hall2 : (d.step (.freeze 0)).allFrozen = true := by
            rw [allFrozen_iff hI2]
            intro g o hg
            rw [← hI2.fro g o hg]
            induction g using Nat.strongRecOn generalizing o with
            | ind g ih =>
              rcases hpp : o.parent with _ | ⟨q, i⟩
              · rw [hI2.nonroot g o hg hpp, hfr, if_pos rfl]
              · obtain ⟨hlt, hqi⟩ := hI2.par g o q i hg hpp
                have hq : q < (w.freeze 0).groups.length := by have := lt_of_getElem? hg; omega
                exact hord' q i g (ih q hlt _ (List.getElem?_eq_getElem hq)) hqi
          refine Or.inr ⟨hall2, tl ++ pre, v, rs2, ?_, hI2, ?_, Or.inl ⟨hc2, ?_⟩⟩
          · intro x hx
            rcases List.mem_append.1 hx with h | h
            · exact h2 x h
            · have := k2 x h; omega
          · have e : w.writes ++ pre ++ [⟨8, le64 v⟩] = ⟨0, header⟩ :: (tl ++ pre) ++ [⟨8, le64 v⟩] := by rw [h1]; rfl
            rw [← e, ← k3, ← k1, hf2]
            simp only [flagOf, hc2]
            rfl
          · show (w.freeze 0).writes = _
            rw [k3, h1]; rfl
        · rw [if_neg hg0, List.append_nil] at k3
          refine Or.inl ⟨?_, ?_, log_append h16 pre k2 k3 hl⟩
          · rw [hfr, if_neg (fun e => hg0 e.symm), hr]
          · show (w.freeze g).closed = false
            have hpp : ∃ q i, o.parent = some (q, i) := by
              rcases hpp : o.parent with _ | ⟨q, i⟩
              · exact absurd (hI.nonroot g o hg hpp) hg0
              · exact ⟨q, i, rfl⟩
            obtain ⟨q, i, hpp⟩ := hpp
            simp only [Writer.freeze, hg, hp, hpp]
            split
            · split
              · split <;> exact hc
              · split <;> exact hc
            · split <;> exact hc
      · -- frozen or missing
        have h1 : w.step (.freeze g) = w := by
          simp only [Writer.step, Writer.freeze]
          rcases hg : w.groups[g]? with _ | o
          · rfl
          · rcases hp : o.pos with _ | q
            · exact absurd ((isOpen_iff w g).2 ⟨o, hg, hp⟩) ho
            · simp only [hp]
        have h2 : d.step (.freeze g) = d := by
          rw [open_eq hI g] at ho
          simp only [Doc.step]
          rw [modify_eq_self]
          intro x hx
          simp only [Doc.isOpen, hx, Option.map_some, Option.getD_some, Bool.not_eq_true', Bool.not_eq_false] at ho
          rw [← ho]
        rw [h1, h2]; exact hC
    | close =>
      have : w.step .close = w := by
        simp only [Writer.step, Writer.close]
        rw [if_neg]
        simp only [Bool.and_eq_true, List.all_eq_true, not_and]
        intro h
        obtain ⟨o, ho, -⟩ := hI.root
        have h1 := h o (List.mem_of_getElem? ho)
        rw [← hI.fro 0 o ho, hr] at h1; simp at h1
      rw [this]; exact hC
  · -- the document is complete
    have hall' := (allFrozen_iff hI).1 hall
    have hno : ∀ g, w.isOpen g = false := by
      intro g
      rw [Bool.eq_false_iff]
      intro ho
      obtain ⟨o, h1, h2⟩ := (isOpen_iff w g).1 ho
      have := hall' g o h1
      rw [h2] at this; simp at this
    have hd : d.step op = d := noop_doc (fun g => by rw [← open_eq hI g]; exact hno g) op
    rw [hd]
    by_cases hcl : op = .close
    · subst hcl
      rcases hw with ⟨hc, hw⟩ | ⟨hc, hw⟩
      · have : w.step .close = { w.emit 5 [255] with closed := true } := by
          simp only [Writer.step, Writer.close]
          rw [if_pos]
          simp only [Bool.and_eq_true, List.all_eq_true, hc, Bool.not_false, and_true]
          intro o ho
          obtain ⟨g, hlt, rfl⟩ := List.getElem_of_mem ho
          exact hall' g _ (List.getElem?_eq_getElem hlt)
        rw [this]
        refine ⟨emit_file hC.file _ _, hC.order, Or.inr ⟨hall, tl, p, rs', htl, hI', hlay, Or.inr ⟨rfl, ?_⟩⟩⟩
        simp only [Writer.emit, hw]
      · have : w.step .close = w := by simp [Writer.step, Writer.close, hc]
        rw [this]; exact hC
    · rw [noop_writer hno op hcl]; exact hC

theorem crash_run (ops : List Op) (hne : ∀ g, Op.addData g [] ∉ ops) {w : Writer} {d : Doc} (hG : Good w d) (hC : Crash w d)
    (ho : freezesInOrder d ops = true) : Crash (w.run ops) (d.run ops) := by
  induction ops generalizing w d with
  | nil => exact hC
  | cons op ops ih =>
    simp only [Writer.run, Doc.run, List.foldl_cons]
    simp only [freezesInOrder, Bool.and_eq_true] at ho
    have h1 : ∀ g, op ≠ .addData g [] := by intro g e; exact hne g (by simp [e])
    refine ih (fun g hg => hne g (by simp [hg])) (good_step hG op h1) (crash_step hG hC op h1 ?_) ho.2
    intro g e i h hi
    subst e
    have := ho.1
    simp only [List.all_eq_true] at this
    exact this _ (List.mem_of_getElem? hi)

end F3D.Ogawa

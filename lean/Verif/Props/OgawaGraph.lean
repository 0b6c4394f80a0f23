import Verif.Proofs.OgawaGraphRun

/-!
# C92: archives with shared groups, shared data and later changes

`Doc` and `Op.Sane` are in `Verif.Spec.OgawaGraph`, `Tree` and `explore` in `Verif.Spec.Ogawa`. `Writer.init.run ops` is the
writer after the calls `ops`.
-/

namespace F3D.Props
open _root_.F3D.OgawaGraph
open _root_.F3D.Ogawa (Tree explore openArchive emptyData le64)

/-- **C92.** At any time of any history, a reader that opens the file sees the document that the calls describe: groups and
data that are in several places are seen in each, with the bytes last written and the data last put there; a group that is
not frozen is seen as empty, and as it is from the moment it is frozen, in every place it is in. The archive is marked as
finished from the moment it is closed. -/
theorem C92_graph (ops : List Op) (hs : ∀ op ∈ ops, op.Sane) (hL : (Writer.init.run ops).file.length < 2 ^ 63) :
    ∃ root, openArchive (Writer.init.run ops).file = .archive (Doc.init.run ops).closed root ∧ ∀ light n,
      explore (Writer.init.run ops).file light n root =
        some (if (Doc.init.run ops).frozen 0 then (Doc.init.run ops).treeOf n 0 else .group []) :=
  good_read (good_run ops hs good_init hL) hL

theorem graph_questions {w : Writer} {d : Doc} (h : Good w d) (hL : w.file.length < 2 ^ 63) (g : Nat) :
    (w.kids g).length = (d.items g).length ∧ ∀ i it, (d.items g)[i]? = some it →
      (w.isChildData g i = true ↔ it = .noData ∨ ∃ x, it = .data x) ∧
      (w.isChildGroup g i = true ↔ it = .noGroup ∨ ∃ h, it = .group h) ∧
      (w.isChildEmptyGroup g i = true ↔ it = .noGroup ∨ ∃ h, it = .group h ∧ (d.frozen h = false ∨ d.items h = [])) ∧
      (w.isChildEmptyData g i = true ↔ it = .noData ∨ ∃ x, it = .data x ∧ d.bytes x = []) := by
  obtain ⟨log, I⟩ := h
  have hK : w.kids g = (d.items g).map (slotVal w.pos w.view.dpos) := I.kids g
  refine ⟨by rw [hK]; simp, fun i it hi => ?_⟩
  have hk : (w.kids g)[i]? = some (slotVal w.pos w.view.dpos it) := by rw [hK, List.getElem?_map, hi]; rfl
  have hD : decide (slotVal w.pos w.view.dpos it &&& emptyData ≠ 0) = Doc.isData it := slot_isData I hL it
  simp only [Writer.isChildData, Writer.isChildGroup, Writer.isChildEmptyGroup, Writer.isChildEmptyData, hk]
  have hG : decide (slotVal w.pos w.view.dpos it &&& emptyData = 0) = !Doc.isData it := by
    rw [← hD]; simp
  rw [hD, hG]
  refine ⟨?_, ?_, ?_, ?_⟩
  · cases it <;> simp [Doc.isData]
  · cases it <;> simp [Doc.isData]
  · rw [decide_eq_true_iff]
    cases it with
    | group h =>
      have hfr : d.frozen h = (w.pos h).isSome := I.fro h
      simp only [slotVal, reduceCtorEq, Item.group.injEq, false_or, exists_eq_left']
      cases hp : w.pos h with
      | none => simp [hfr, hp]
      | some p =>
        rw [hfr, hp]
        simp only [Option.getD_some, Option.isSome_some, Bool.true_eq_false, false_or]
        rcases I.gpos h p hp with ⟨h1, rfl⟩ | ⟨h1, r, -, rfl⟩
        · exact ⟨fun _ => h1, fun _ => rfl⟩
        · have := Ogawa.posOf_ge (recs w.view.K d.view.bytes log) r
          exact ⟨fun k => by rw [k] at this; omega, fun k => absurd k h1⟩
    | data x =>
      have := Ogawa.data_and (w.view.dpos x) (by
        have h1 := dpos_lt I hL x
        have h2 : w.view.file.length < 2 ^ 63 := hL
        omega)
      simp only [slotVal, reduceCtorEq, false_or, false_and, exists_false, iff_false]
      intro k
      rw [k] at this
      exact this rfl
    | noGroup => simp [slotVal]
    | noData => simp [slotVal, emptyData]
  · rw [decide_eq_true_iff]
    cases it with
    | group h =>
      have : (w.pos h).getD 0 < 2 ^ 63 := layout_ok I hL h
      simp only [slotVal, reduceCtorEq, false_or, false_and, exists_false, iff_false, emptyData]
      omega
    | data x =>
      have hlt : w.view.dpos x < 2 ^ 63 := by
        have h1 := dpos_lt I hL x
        have h2 : w.view.file.length < 2 ^ 63 := hL
        omega
      have hz : (w.view.dpos x ||| emptyData = emptyData) ↔ w.view.dpos x = 0 := by
        constructor
        · intro k
          have h1 := Ogawa.data_pos _ hlt
          rw [k] at h1
          rw [← h1]; decide
        · intro k; rw [k]; decide
      simp only [slotVal, reduceCtorEq, Item.data.injEq, false_or, exists_eq_left', hz]
      by_cases hb : d.bytes x = []
      · exact ⟨fun _ => hb, fun _ => I.dnil x hb⟩
      · obtain ⟨r, -, e⟩ := I.drec x hb
        have := Ogawa.posOf_ge (recs w.view.K d.view.bytes log) r
        exact ⟨fun k => by omega, fun k => absurd k hb⟩
    | noGroup => simp [slotVal, emptyData]
    | noData => simp [slotVal]

/-- **C92, questions.** What the writer says about the children of a group. An empty group is one that was added as such, one
that is frozen without children, and also one that is not frozen yet. -/
theorem C92_questions (ops : List Op) (hs : ∀ op ∈ ops, op.Sane) (hL : (Writer.init.run ops).file.length < 2 ^ 63) (g : Nat) :
    let w := Writer.init.run ops
    let d := Doc.init.run ops
    (w.kids g).length = (d.items g).length ∧ ∀ i it, (d.items g)[i]? = some it →
      (w.isChildData g i = true ↔ it = .noData ∨ ∃ x, it = .data x) ∧
      (w.isChildGroup g i = true ↔ it = .noGroup ∨ ∃ h, it = .group h) ∧
      (w.isChildEmptyGroup g i = true ↔ it = .noGroup ∨ ∃ h, it = .group h ∧ (d.frozen h = false ∨ d.items h = [])) ∧
      (w.isChildEmptyData g i = true ↔ it = .noData ∨ ∃ x, it = .data x ∧ d.bytes x = []) :=
  graph_questions (good_run ops hs good_init hL) hL g

/-- **C92, parts.** Data given in parts are data given in one piece, empty parts or not, in any state. -/
theorem C92_parts (w : Writer) (g : Nat) (ps : List (List UInt8)) :
    w.step (.createParts g ps) = w.step (.createData g ps.flatten) ∧ w.step (.addParts g ps) = w.step (.addData g ps.flatten) := by
  simp only [Writer.step, Writer.addData, Writer.addParts, createParts_eq, and_self]

/-- **Disagreement.** `createData` makes data that are not in a group yet, but with no bytes it adds an empty child to the group. -/
theorem C92_created_without_bytes (w : Writer) (g : Nat) (ho : w.isOpen g = true) (bs : List UInt8) :
    ((w.step (.createData g bs)).kids g).length = if bs = [] then (w.kids g).length + 1 else (w.kids g).length := by
  obtain ⟨hg, -⟩ := (open_iff w g).1 ho
  by_cases hb : bs = []
  · rw [if_pos hb, hb]
    simp only [Writer.step, Writer.createData, if_pos ho, List.length_nil, if_true]
    have := congrArg View.K (view_pushKid w g emptyData hg)
    have h2 : (w.pushKid g emptyData).kids g = w.kids g ++ [emptyData] := by
      have := congrFun this g
      rw [show (w.pushKid g emptyData).kids g = _ from this]; simp
    show ((w.pushKid g emptyData).kids g).length = _
    rw [h2]; simp
  · rw [if_neg hb]
    simp only [Writer.step]
    rw [createData_eq w g bs hb ho]; rfl

/-- A group with data that are in it twice, a group that is in two places and frozen last, data that are rewritten and replaced. -/
def graphCalls : List Op :=
  [.addGroup 0, .createData 0 [1, 2, 3], .shareData 1 0, .shareData 1 0, .addParts 0 [[4], [], [5, 6]], .addGroup 0,
   .shareGroup 2 1, .addEmptyGroup 2, .addEmptyData 2, .freeze 2, .freeze 0, .rewrite 0 [9] 1, .freeze 1, .replaceData 2 2 1,
   .rewrite 1 [7, 8] 1, .close]

def graphTree : Tree :=
  .group [.group [.data [1, 9, 3], .data [1, 9, 3]], .data [4, 7, 8],
    .group [.group [.data [1, 9, 3], .data [1, 9, 3]], .group [], .data [4, 7, 8]]]

example : (∀ op ∈ graphCalls, op.Sane) ∧ (Writer.init.run graphCalls).file.length < 2 ^ 63 ∧
    (Doc.init.run graphCalls).treeOf 5 0 = graphTree ∧ (Doc.init.run graphCalls).closed = true := by
  refine ⟨?_, by decide +kernel, by rfl, by decide +kernel⟩
  intro op hop
  simp only [graphCalls, List.mem_cons, List.not_mem_nil, or_false] at hop
  rcases hop with rfl | rfl | rfl | rfl | rfl | rfl | rfl | rfl | rfl | rfl | rfl | rfl | rfl | rfl | rfl | rfl <;> simp [Op.Sane]

/-- A group inside itself can be written; a reader finds it at every depth. -/
example : (Doc.init.run [.addEmptyData 0, .shareGroup 0 0, .freeze 0]).treeOf 3 0 =
    .group [.data [], .group [.data [], .group [.data [], .group []]]] := by rfl

/-- Before the shared group is frozen it is seen as empty, in both places. -/
example : (Doc.init.run (graphCalls.take 12)).treeOf 5 0 =
    .group [.group [], .data [4, 5, 6], .group [.group [], .group [], .data []]] := by rfl

/-- **Disagreement.** Rewriting checks that offset and size stay inside the data, but their sum wraps around 64 bits: an offset
of 2⁶⁴ − 8 is accepted and the number of bytes in front of the data is overwritten, so the data are read as shorter, or as
longer with what follows them in the file. -/
theorem C92_rewrite_wraps (n : UInt8) (hn : n = 1 ∨ n = 5) :
    let ops : List Op := [.addData 0 [1, 2, 3], .freeze 0, .rewrite 0 [n, 0, 0, 0, 0, 0, 0, 0] (2 ^ 64 - 8)]
    Doc.init.run ops = Doc.init.run (ops.take 2) ∧ (Doc.init.run ops).treeOf 2 0 = .group [.data [1, 2, 3]] ∧
    ∃ root, openArchive (Writer.init.run ops).file = .archive false root ∧
      explore (Writer.init.run ops).file false 2 root = some (.group [.data (if n = 1 then [1] else [1, 2, 3, 1, 0])]) := by
  rcases hn with rfl | rfl
  · refine ⟨by decide +kernel, by rfl, ⟨27, 1, [16 ||| 2 ^ 63]⟩, by decide +kernel, by rfl⟩
  · refine ⟨by decide +kernel, by rfl, ⟨27, 1, [16 ||| 2 ^ 63]⟩, by decide +kernel, by rfl⟩

end F3D.Props

import Verif.Props.Hdf5Groups
import Verif.Props.Hdf5FilesFields

/-!
# C87: a session with groups that meets the hypotheses
-/

namespace F3D
namespace Props
open Ogawa Og FieldIO
open _root_.F3D.Hdf5
open _root_.F3D.Files (intName)

/-- The sample session of C80, with two groups "g" and "h" that are added in two calls. -/
def groupsBefore : List (UCall Nat) :=
  .add [([103], [⟨intName [113] 0, [97]⟩])] :: sessionCalls.map .file ++
    [.add [([103], [⟨[113], [98]⟩, ⟨[112], [97]⟩]), ([104], [])]]

/-- A group is added, and the groups are written again. -/
def groupsAdded : List (UCall Nat) := [.add [([105], [⟨[113], [97]⟩])], .writeGroups]

theorem word_of (s : Name) (h : s ≠ [] ∧ (32 : UInt8) ∉ s ∧ (58 : UInt8) ∉ s ∧ (0 : UInt8) ∉ s) : Word s := h

theorem groups_use : GroupUse attrMaps (groupsBefore ++ .writeGroups :: groupsAdded) := by
  have hf : ∀ c, UCall.file c ∈ groupsBefore ++ .writeGroups :: groupsAdded → c ∈ sessionCalls := by
    intro c hc
    simp only [groupsBefore, groupsAdded, List.mem_append, List.mem_cons, List.mem_map, List.not_mem_nil, reduceCtorEq, or_false,
      false_or, UCall.file.injEq, exists_eq_right] at hc
    exact hc
  refine ⟨fun c hc => session_calls c (hf c hc), fun w hw => session_fits.1 w (hf _ hw), ?_⟩
  intro gs hgs p hp
  simp only [groupsBefore, groupsAdded, List.mem_append, List.mem_cons, List.mem_map, List.not_mem_nil, reduceCtorEq, or_false,
    false_or, UCall.add.injEq, and_false, exists_false] at hgs
  rcases hgs with (rfl | rfl) | rfl
  · simp only [List.mem_cons, List.not_mem_nil, or_false] at hp
    subst hp
    refine ⟨⟨by decide, by decide, by decide⟩, ?_⟩
    intro m hm
    simp only [List.mem_cons, List.not_mem_nil, or_false] at hm
    subst hm
    exact ⟨word_of _ (by decide), word_of _ (by decide)⟩
  · simp only [List.mem_cons, List.not_mem_nil, or_false] at hp
    rcases hp with rfl | rfl
    · refine ⟨⟨by decide, by decide, by decide⟩, ?_⟩
      intro m hm
      simp only [List.mem_cons, List.not_mem_nil, or_false] at hm
      rcases hm with rfl | rfl <;> exact ⟨word_of _ (by decide), word_of _ (by decide)⟩
    · exact ⟨⟨by decide, by decide, by decide⟩, fun m hm => nomatch hm⟩
  · simp only [List.mem_cons, List.not_mem_nil, or_false] at hp
    subst hp
    refine ⟨⟨by decide, by decide, by decide⟩, ?_⟩
    intro m hm
    simp only [List.mem_cons, List.not_mem_nil, or_false] at hm
    subst hm
    exact ⟨word_of _ (by decide), word_of _ (by decide)⟩

theorem groups_pre : UCall.writeGroups ∉ groupsBefore := by
  simp [groupsBefore]

theorem groups_members : membersOf [103] groupsBefore = some [⟨intName [113] 0, [97]⟩, ⟨[113], [98]⟩, ⟨[112], [97]⟩] ∧
    membersOf [104] groupsBefore = some [] ∧ membersOf [105] groupsBefore = none := by
  unfold groupsBefore sessionCalls
  exact ⟨rfl, rfl, rfl⟩

theorem groups_some : ∃ n, membersOf n groupsBefore ≠ none := ⟨[103], by rw [groups_members.1]; simp⟩

/-- The group "g" comes back as "q:a q:b p:a ", "h" is empty, and "i" is not in the file. -/
example : ∃ rs o, newFile.run attrMaps ((groupsBefore ++ .writeGroups :: groupsAdded).map UCall.call) = some (rs, o) ∧
    ∃ after, readGroups ⟨List.reverse, List.reverse⟩ o.out.root [] = some (true, after) ∧
      after.get [103] = some [113, 58, 97, 32, 113, 58, 98, 32, 112, 58, 97, 32] ∧ after.get [104] = some [] ∧
      after.get [105] = none := by
  obtain ⟨rs, o, h1, -, h3⟩ := C87_round_trip attrMaps groupsBefore groupsAdded groups_use groups_pre groups_some
  obtain ⟨after, h4, h5⟩ := h3 ⟨List.reverse, List.reverse⟩ order_visits.2 []
  refine ⟨rs, o, h1, after, h4, ?_, ?_, ?_⟩
  · rw [h5, groups_members.1]; decide
  · rw [h5, groups_members.2.1]; rfl
  · rw [h5, groups_members.2.2]; rfl

example := C87_layers_unaffected attrMaps _ groups_use
example := C87_second_write_fails attrMaps groupsBefore groupsAdded groups_use groups_pre groups_some
example := C87_not_written attrMaps groupsBefore ⟨fun c hc => groups_use.session c (by simp [hc]),
  fun w hw => groups_use.fits w (by simp [hw]), fun gs hg => groups_use.groups gs (by simp [hg])⟩ groups_pre

/-- "a:x" and "b:y" in the group "g". -/
example := C87_texts_run_together attrMaps [103] [97] [120] [98] [121] ⟨by decide, by decide, by decide⟩ (word_of _ (by decide))
  (word_of _ (by decide)) (word_of _ (by decide)) (word_of _ (by decide))

/-- An object with a group. -/
example := C87_create_keeps_groups attrMaps ⟨Hdf5.Out.new, [([103], [97, 58, 120, 32])]⟩ trivial
  (by intro p hp; simp only [List.mem_cons, List.not_mem_nil, or_false] at hp; subst hp; exact ⟨by decide, by decide, by decide⟩)
  (by simp)

/-- "my.cloud" -/
example : Member.plain ⟨[109, 121] ++ 46 :: [99, 108, 111, 117, 100], [100]⟩ = ⟨[109, 121], [100]⟩ :=
  C87_dots_lost [109, 121] [99, 108, 111, 117, 100] [100] (by decide)

end Props
end F3D

import Verif.Model.WriteField
import Verif.Props.Files

/-!
# C43: fields of classes without an IO class
-/

namespace F3D.Props
open Files Og Ogawa FieldIO WriteField
open MappingIO (kMapping)
open Metadata (Meta)

variable {M L F : Type} [FieldClass F]

/-- The call is one for a field of a class that has no IO class. -/
def NoClass {G : Type} (t : Table G) (w : Write M) : Prop :=
  ∃ part layer m mdata cls f, t cls = none ∧ w = call t part layer m mdata cls f

theorem noclass_body {G : Type} {t : Table G} {w : Write M} (h : NoClass t w) : w.body = [] := by
  obtain ⟨part, layer, m, mdata, cls, f, hc, rfl⟩ := h
  simp [call, writeField, hc]

theorem readBody_noclass (w : Write M) (hb : w.body = []) (rf : Name → List Tree → Res F) :
    readBody rf (groupKids w.layer (layerGroup w)) = .crash := by
  have hn : ∀ e ∈ layerGroup w, plainName (nameOf e) := by
    intro e he
    simp only [layerGroup, hb, List.append_nil, List.mem_cons, List.not_mem_nil, or_false] at he
    rcases he with rfl | rfl
    · show plainName kClassType; exact ⟨by decide, by decide⟩
    · show plainName kMetadata; exact ⟨by decide, by decide⟩
  have hf : firstOf .attribute kClassName (layerGroup w) = none := by
    simp [layerGroup, hb, firstOf, kindOf, nameOf, show ¬ kClassType = kClassName by decide]
  have : find .attribute kClassName (groupKids w.layer (layerGroup w)) = some none := by
    rw [find_plain _ _ _ _ (by decide), scan_first _ _ _ hn, hf]
    rfl
  unfold readBody findTyped
  rw [this]

theorem layerBack_noclass {C : MapIO M} (readMap : List Tree → Res L) (readField : Name → Name → List Tree → Res F)
    (h : Home M) (w : Write M) (hb : w.body = []) : layerBack C readMap readField h w = .crash := by
  unfold layerBack
  rw [readBody_noclass w hb]
  rfl

theorem collect_crash {β : Type} : ∀ (rs : List (Res β)), rs ≠ [] → (∀ r ∈ rs, r = .crash) → collect rs = .crash
  | [], h, _ => absurd rfl h
  | r :: rs, _, h => by
    rw [h r (by simp)]
    rfl

/-- **C43, a field whose class has no IO class.** `writeLayer` returns true for it all the same; the layer is in the
file, in a partition of its name. The file opens, and reading the layer from that partition is undefined (an attribute
that was not found is dereferenced), for whatever type it is asked. So is reading by names if all layers written under the
names are such. -/
theorem C43_class_without_io {G : Type} (t : Table G) (C : MapIO M) (o₀ o : Out M) (cs : List (Call M)) (rs : List Ret)
    (H : Wrote C o₀ cs rs o) (P : Plain cs) (readMap : List Tree → Res L) (R : Readable C readMap cs) :
    ∃ i : In L, openFile readMap (rootKids o.entries) = .ok i ∧
      (∀ w ∈ stored cs rs, NoClass t w → w.layer ≠ kMapping → ∃ k, At o w k ∧
        ∀ readField : Name → Name → List Tree → Res F,
          i.readLayer readField (intName w.part k) w.layer = .crash) ∧
      ∀ u l, u ≠ [] → l ≠ [] → l ≠ kMapping → (∃ w ∈ stored cs rs, w.part = u ∧ w.layer = l) →
        (∀ w ∈ stored cs rs, w.part = u → w.layer = l → NoClass t w) →
        ∀ readField : Name → Name → List Tree → Res F, i.readLayers readField u l = .crash := by
  obtain ⟨hs, I⟩ := inv_wrote H
  have hw : ∀ w ∈ stored cs rs, Call.write w ∈ cs := fun w h => stored_mem cs rs w h
  obtain ⟨info, hi⟩ := open_file I P hw readMap R
  refine ⟨_, hi, ?_, ?_⟩
  · intro w hs' hc hm
    obtain ⟨h, hh, hx⟩ := (mem_stored I w).1 hs'
    refine ⟨h.idx, at_home I P hw h hh w hx hm, fun readField => ?_⟩
    rw [(I.fits h hh w hx).1, read_layer I P hw readMap readField info h hh w hx hm,
      layerBack_noclass readMap readField h w (noclass_body hc)]
  · intro u l hu hl hm ⟨w, hw1, hw2, hw3⟩ hall readField
    unfold In.readLayers
    rw [if_neg (by simp [hu, hl])]
    have e : (inParts C readMap hs).map (·.name) = hs.map fun h => intName h.user h.idx := by
      simp [inParts, List.map_map, Function.comp_def]
    show collect (List.flatMap _ ((inParts C readMap hs).map (·.name))) = _
    rw [e, List.flatMap_map]
    apply collect_crash
    · obtain ⟨h, hh, hx⟩ := (mem_stored I w).1 hw1
      have hr := read_home I P hw readMap readField info h hh (fun x => decide (x = l))
      simp only at hr
      apply List.ne_nil_of_mem (a := layerBack C readMap readField h w)
      rw [List.mem_flatMap]
      refine ⟨h, hh, ?_⟩
      rw [remove_intName, if_pos ((I.fits h hh w hx).1.symm.trans hw2), hr]
      exact List.mem_map_of_mem (List.mem_filter.2 ⟨hx, by simp [hw3, hm]⟩)
    · intro r hr
      rw [List.mem_flatMap] at hr
      obtain ⟨h, hh, hr⟩ := hr
      have hr' := read_home I P hw readMap readField info h hh (fun x => decide (x = l))
      simp only at hr'
      rw [remove_intName] at hr
      split at hr
      · rename_i hu'
        rw [hr', List.mem_map] at hr
        obtain ⟨w', hw', rfl⟩ := hr
        rw [List.mem_filter] at hw'
        have hl' : w'.layer = l := by
          have := hw'.2
          simp only [Bool.and_eq_true, decide_eq_true_eq] at this
          exact this.2
        refine layerBack_noclass readMap readField h w' (noclass_body (hall w' ?_ ?_ hl'))
        · exact (mem_stored I w').2 ⟨h, hh, hw'.1⟩
        · exact (I.fits h hh w' hw'.1).1.trans hu'
      · simp at hr

/-- A table with the class "D" only. -/
def oneClass : Table UInt8 := fun c => if c = [68] then some fun x => (true, [.attribute [120] .int8 [x]]) else none

/-- Layers "a" of class "P" and "b" of class "D" of the partition "p". -/
def classCalls : List (Call Nat) :=
  [.write (call oneClass [112] [97] 1 [] [80] 5), .write (call oneClass [112] [98] 1 [] [68] 6)]

/-- Writing the first field failed, both calls return true. -/
theorem C43_class_without_io_witness : (writeField oneClass [80] 5).1 = false ∧
    (writeField oneClass [68] 6).1 = true ∧
    (∃ o, Wrote numberMaps Out.new classCalls [.written, .written] o) ∧ Plain classCalls ∧
    Readable numberMaps (fun kids => Res.ok kids.length) classCalls ∧
    NoClass oneClass (call oneClass [112] [97] 1 [] [80] 5 : Write Nat) ∧
    (stored classCalls [.written, .written]).map (fun w => (w.part, w.layer)) = [([112], [97]), ([112], [98])] := by
  refine ⟨rfl, rfl, ⟨_, ?_, rfl⟩, ?_, ?_, ⟨[112], [97], 1, [], [80], 5, rfl, rfl⟩, rfl⟩
  · intro c hc
    simp only [classCalls, List.mem_cons, List.not_mem_nil, or_false] at hc
    rcases hc with rfl | rfl <;> exact .inl ⟨_, rfl⟩
  · constructor <;> intro w hw <;> simp only [classCalls, List.mem_cons, List.not_mem_nil, or_false, Call.write.injEq] at hw <;>
      rcases hw with rfl | rfl <;> simp [call, plainName]
  · refine ⟨fun w _ => .inl ⟨_, rfl⟩, fun es he => ?_⟩
    simp [classCalls] at he

end F3D.Props

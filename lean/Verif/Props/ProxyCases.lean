import Verif.Props.ProxyHdf5
import Verif.Props.FileObjectCases

/-!
# C82: cases
-/

namespace F3D.Props
open Files Og Ogawa FieldIO LayerIO MappingIO
open MipIO (denseClass)
open Metadata (Meta)
open Proxy (Windows kMipLevels)

/-- Every layer of the sample has windows. -/
theorem fileOps_outlined : ∀ l, FileOp.layer l ∈ fileOps → outline l.content ≠ none := by
  intro l hl
  simp only [fileOps, List.mem_cons, List.not_mem_nil, or_false, FileOp.layer.injEq, reduceCtorEq, false_or] at hl
  rcases hl with rfl | rfl | rfl | rfl | rfl | rfl <;> exact fun h => nomatch h

/-- The sample file meets the hypotheses of `C82_whole_file`: all six layers have proxies, and that of the layer "c" of
partition "q" has the windows and the number of levels of the MIP field that was written. -/
example : ∃ root kids i ps, openArchive (Writer.init.run (writeTree fileTree)).file = .archive true root ∧
    explore (Writer.init.run (writeTree fileTree)).file false (levels fileTree) root = some (.group kids) ∧
    openFile (readMap 1) kids = .ok i ∧ Proxy.readAll i false [] = .ok ps ∧ ps.length = 6 ∧
    ∃ p, Proxy.readLayer i true [113] [99] = .ok [p] ∧ p.data.dw = (pairField ((1 : UInt8), (0 : UInt8)) (2, 0)).dw ∧
      lookup p.info levelCountName .int = some (.int 2) := by
  have hid : ∀ m, sameSamples m m = true := by intro m; cases m <;> simp [sameSamples]
  have hsy : ∀ a b, sameSamples a b = true → sameSamples b a = true := by
    intro a b h
    cases a <;> cases b <;> simp_all [sameSamples]
  obtain ⟨o, H, h⟩ := C82_whole_file half16 rfl storeZlib (0, 0) (0, 0) 1 sameSamples hid hsy
    Out.new fileOps fileOps_good fileOps_outlined
  have ho : o = fileOut := by
    rw [fileOut, H.2]
    rfl
  subst ho
  rw [fileTree_eq] at h
  obtain ⟨h1, h2, h3⟩ := written_tree fileTree fileTree_small.1 fileTree_small.2
  obtain ⟨root, kids, i, a1, a2, a3, a4, a5⟩ := h _ _ h1 h2 h3 fileTree_small.2
  obtain ⟨ls, ps, b1, b2, b3, -⟩ := a5 rfl false []
  obtain ⟨ls', ps', c1, c2, c3⟩ := a4 true [113] [99] (by decide) (by decide) (by decide)
  refine ⟨root, kids, i, ps, a1, a2, a3, b1, ?_, ?_⟩
  · rw [← b3.length_eq, b2.length_eq]
    rfl
  · have e : (layersOf fileOps).filter (fun x => x.name = [113] ∧ x.attr = [99]) =
        [⟨[113], [99], .null, offsetMeta, .mip denseClass (twoLevels (1, 0) (2, 0) (3, 0))⟩] := rfl
    rw [e, List.perm_singleton] at c2
    subst c2
    cases c3 with
    | @cons _ r _ rs' hr hrest =>
      cases hrest
      obtain ⟨k, hk, hm⟩ := hr.data
      have hk' : some ((pairField ((1 : UInt8), (0 : UInt8)) (2, 0)).extents, (pairField ((1 : UInt8), (0 : UInt8)) (2, 0)).dw, 2) =
        some (r.data.extents, r.data.dw, k) := hk
      simp only [Option.some.injEq, Prod.mk.injEq] at hk'
      refine ⟨r, c1, hk'.2.1.symm, ?_⟩
      rw [hm, if_pos ⟨rfl, rfl⟩, ← hk'.2.2]
      rfl

/-- A MAC field, beside a dense field. -/
def macCalls : List (Call AnyMap) :=
  [.write (Layer.write half16 ⟨[112], [97], .null, Meta.empty, .dense (pairField (7, 0) (8, 1))⟩),
   .write ⟨[112], [98], .null, [], fieldEntries [77] (writeMac ()).1⟩]

/-- The hypotheses of `C82_layer_without_windows`: proxies of the layers "b", and of all layers, are not read; those of "a"
are. -/
example : ∃ o i, Wrote ⟨sameSamples, writeMap⟩ Out.new macCalls [.written, .written] o ∧
    openFile (readMap 1) (rootKids o.entries) = .ok i ∧ Proxy.readLayer i false [112] [98] = .exception ∧
    Proxy.readAll i false [] = .exception := by
  have hn : ∀ w, Call.write w ∈ macCalls → w = Layer.write half16 ⟨[112], [97], .null, Meta.empty, .dense (pairField (7, 0) (8, 1))⟩ ∨
      w = ⟨[112], [98], .null, [], fieldEntries [77] (writeMac ()).1⟩ := by
    intro w hw
    simpa [macCalls] using hw
  have H : ∃ o, Wrote ⟨sameSamples, writeMap⟩ Out.new macCalls [.written, .written] o := by
    refine ⟨_, ?_, rfl⟩
    intro c hc
    simp only [macCalls, List.mem_cons, List.not_mem_nil, or_false] at hc
    rcases hc with rfl | rfl <;> exact .inl ⟨_, rfl⟩
  obtain ⟨o, H⟩ := H
  have P : Plain macCalls := by
    constructor <;> intro w hw <;> rcases hn w hw with rfl | rfl <;> simp [Layer.write, plainName]
  have R : Readable ⟨sameSamples, writeMap⟩ (readMap 1) macCalls := by
    refine ⟨fun w _ => ?_, fun es he => ?_⟩
    · obtain ⟨x, hx, -⟩ := read_map_back 1 w.mapping
      exact .inl ⟨x, hx⟩
    · simp [macCalls] at he
  obtain ⟨i, hi, -⟩ := C44_listing_of_file _ o macCalls _ H P (readMap 1) R
  have hg : GoodLayer half16 storeZlib (0, 0) (0, 0) ⟨[112], [97], .null, Meta.empty, .dense (pairField (7, 0) (8, 1))⟩ :=
    ⟨by decide, ⟨by decide, by decide, by decide⟩, empty_good, pair_storable _ _ _⟩
  obtain ⟨m, -, hb⟩ := proxy_layer half16 rfl storeZlib (0, 0) (0, 0) _ hg _ _ _ rfl
  have hx : Proxy.body (groupKids [98] (layerGroup (⟨[112], [98], .null, [], fieldEntries [77] (writeMac ()).1⟩ : Write AnyMap))) =
      .exception := by
    refine no_windows ⟨[112], [98], AnyMap.null, [], fieldEntries [77] (writeMac ()).1⟩ ?_ ?_
    · exact fun x hx => (layer_pre_foreign [77] [] x hx).1
    · intro x hx
      have : x = .attribute kClassName .string [77] := by simpa [fieldEntries, writeMac] using hx
      subst this
      show kClassName ≠ kExtMin
      decide
  have hst : stored macCalls [.written, .written] =
      [Layer.write half16 ⟨[112], [97], .null, Meta.empty, .dense (pairField (7, 0) (8, 1))⟩,
        ⟨[112], [98], .null, [], fieldEntries [77] (writeMac ()).1⟩] := rfl
  obtain ⟨h1, h2⟩ := C82_layer_without_windows _ Out.new o macCalls _ H P (readMap 1) R i hi
    (fun w hw _ => by
      rw [hst] at hw
      simp only [List.mem_cons, List.not_mem_nil, or_false] at hw
      rcases hw with rfl | rfl
      · exact .inr ⟨_, hb⟩
      · exact .inl hx)
    ⟨[112], [98], AnyMap.null, [], fieldEntries [77] (writeMac ()).1⟩ (by rw [hst]; simp) (by simp) (show ([98] : Name) ≠ kMapping by decide)
    Unit () [77] rfl false
  exact ⟨o, i, H, hi, h1, h2 rfl [] (.inl rfl)⟩

/-- The hypotheses of `C82_second_file_has_no_proxies`. -/
example : ∃ o₁ o₂ i, Wrote numberMaps Out.new [.write (numbered [112] [97] 1 0)] [.written] o₁ ∧
    Wrote numberMaps o₁ [.write (numbered [112] [97] 1 0)] [.written] o₂ ∧ o₂.listing.numInt [112] ≤ o₁.listing.numInt [112] ∧
    Files.Plain [Call.write (numbered [112] [97] 1 0)] ∧
    Files.Readable numberMaps (fun kids => .ok kids.length) [Call.write (numbered [112] [97] 1 0)] ∧
    openFile (fun kids => .ok kids.length) (rootKids o₂.entries) = .ok (i : In Nat) := by
  have H : ∀ c ∈ [Call.write (numbered [112] [97] 1 0)], (∃ w, c = .write w) ∨ ∃ es, c = .global es := by
    intro c hc
    simp only [List.mem_singleton] at hc
    exact .inl ⟨_, hc⟩
  have P : Plain [Call.write (numbered [112] [97] 1 0)] := by
    constructor <;> intro w hw <;> simp only [List.mem_singleton, Call.write.injEq] at hw <;> subst hw <;>
      simp [numbered, plainName]
  have R : Readable numberMaps (fun kids => .ok kids.length) [Call.write (numbered [112] [97] 1 0)] :=
    ⟨fun w _ => .inl ⟨_, rfl⟩, fun es he => by simp at he⟩
  have hw : ∃ o₁ o₂, Wrote numberMaps Out.new [.write (numbered [112] [97] 1 0)] [.written] o₁ ∧
      Wrote numberMaps o₁ [.write (numbered [112] [97] 1 0)] [.written] o₂ ∧
      o₂.listing.numInt [112] ≤ o₁.listing.numInt [112] := ⟨_, _, ⟨H, rfl⟩, ⟨H, rfl⟩, by decide⟩
  obtain ⟨o₁, o₂, H₁, H₂, hle⟩ := hw
  obtain ⟨hs, I⟩ := inv_wrote H₂
  obtain ⟨info, hi⟩ := open_file I P (fun w h => stored_mem _ _ w h) (fun kids => .ok kids.length) R
  exact ⟨o₁, o₂, _, H₁, H₂, hle, P, R, hi⟩

end F3D.Props

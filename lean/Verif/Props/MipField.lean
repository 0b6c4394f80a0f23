import Verif.Model.MipField
import Verif.Props.MipMapping
import Verif.Props.Metadata
import Verif.Props.MipIO

/-!
# C76: the offset of a MIP field, its metadata and its levels
-/

namespace F3D.Props
open F3D F3D.Mapping F3D.MipMapping F3D.MipInterp F3D.MipField
open _root_.F3D.Metadata (Meta)
open _root_.F3D.Mapping (Op)
open _root_.F3D.Identical (Map)

/-! ## Specification -/

/-- A call on the metadata that may change the offset in it. -/
def touches : Call → Prop
  | .metadata (.vecInt n _) => n = kMipOffset
  | .metadata (.assign _) => True
  | _ => False

/-- The offset given last. -/
def lastOffset (v : V3i) : List Call → V3i
  | [] => v
  | .setMIPOffset w :: cs => lastOffset w cs
  | _ :: cs => lastOffset v cs

/-- The reported offset is that in the metadata. -/
def OffsetAgrees (o : Off) : Prop := lookup o.info kMipOffset .vecInt = some (.vecInt o.offset) ∨
  (lookup o.info kMipOffset .vecInt = none ∧ o.offset = ⟨0, 0, 0⟩)

/-! ## The offset -/

theorem agree_iff (o : Off) : OffsetAgrees o ↔ o.offset = o.stored := by
  unfold OffsetAgrees Off.stored Metadata.Meta.getVecInt
  simp only [lookup]
  cases h : o.info.vecInt.get kMipOffset with
  | none => simp
  | some v => simp [eq_comm]

theorem stored_set (o : Off) (v : V3i) : (o.setMIPOffset v).stored = v := by
  simp [Off.stored, Off.setMIPOffset, Metadata.Meta.getVecInt, Metadata.Meta.setVecInt, get_set]

theorem agree_set (o : Off) (v : V3i) : OffsetAgrees (o.setMIPOffset v) := (agree_iff _).2 (stored_set o v).symm

theorem changed_off {root : ℚ → ℚ} {s s' : State} (h : s.mappingChanged root = some s') : s'.off = s.off.mappingChanged ∧
    s'.extents = s.extents ∧ s'.dw = s.dw ∧ s'.map = s.map := by
  unfold State.mappingChanged at h
  split at h
  · simp at h
  · rw [Option.map_eq_some_iff] at h
    obtain ⟨l, -, rfl⟩ := h
    exact ⟨rfl, rfl, rfl, rfl⟩

theorem setMapping_off {root : ℚ → ℚ} {s s' : State} {m : Option Map} (h : s.setMapping root m = some s') :
    s'.off = s.off.mappingChanged ∧ s'.extents = s.extents ∧ s'.dw = s.dw := by
  cases m with
  | none => have := changed_off h; exact ⟨this.1, this.2.1, this.2.2.1⟩
  | some m =>
    simp only [State.setMapping, Option.bind_eq_some_iff] at h
    obtain ⟨m', -, h⟩ := h
    have := changed_off h
    exact ⟨this.1, this.2.1, this.2.2.1⟩

theorem setup_off {root : ℚ → ℚ} {s s' : State} {slot : Given → Slot} {fields : List Given} {b : Bool}
    (h : s.setup root slot fields = some (b, s')) : (b = true ∧ s'.off = s.off.mappingChanged) ∨
      (b = false ∧ s'.off = s.off ∧ s'.slots = []) := by
  unfold State.setup at h
  split at h
  · simp only [Option.some.injEq, Prod.mk.injEq] at h
    obtain ⟨rfl, rfl⟩ := h
    exact .inr ⟨rfl, rfl, rfl⟩
  · split at h
    · rw [Option.map_eq_some_iff] at h
      obtain ⟨x, hx, h⟩ := h
      simp only [Prod.mk.injEq] at h
      obtain ⟨rfl, rfl⟩ := h
      exact .inl ⟨rfl, (setMapping_off hx).1⟩
    · simp only [Option.some.injEq, Prod.mk.injEq] at h
      obtain ⟨rfl, rfl⟩ := h
      exact .inr ⟨rfl, rfl, rfl⟩

theorem level_off {root : ℚ → ℚ} {s s' : State} {i : ℕ} (h : s.level root i = some s') :
    s'.off = s.off ∧ s'.extents = s.extents ∧ s'.map = s.map := by
  unfold State.level at h
  split at h
  · rw [Option.map_eq_some_iff] at h
    obtain ⟨m, -, rfl⟩ := h
    exact ⟨rfl, rfl, rfl⟩
  · cases h; exact ⟨rfl, rfl, rfl⟩
  · simp at h

/-- The metadata after a call on it. -/
theorem meta_step (o : Metadata.Obj) (op : Metadata.MetaOp) (n : Og.Name) (k : MKind) (h : ¬ ∃ x, op = .assign x) :
    lookup (o.step op).data n k = (match setting op with
      | some (m, v) => if m = n ∧ mkind v = k then some v else lookup o.data n k
      | none => lookup o.data n k) := by
  cases op with
  | assign x => exact absurd ⟨x, rfl⟩ h
  | _ => 
    cases k <;> simp [setting, Metadata.Obj.step, Metadata.Obj.changed, lookup, Metadata.Meta.setStr, Metadata.Meta.setInt, Metadata.Meta.setFloat,
      Metadata.Meta.setVecInt, Metadata.Meta.setVecFloat, get_set, mkind] <;> split <;> simp_all

theorem untouched (o : Metadata.Obj) (op : Metadata.MetaOp) (h : ¬ touches (.metadata op)) :
    lookup (o.step op).data kMipOffset .vecInt = lookup o.data kMipOffset .vecInt := by
  rw [meta_step o op _ _ (by rintro ⟨x, rfl⟩; exact h trivial)]
  cases op with
  | vecInt n v =>
    simp only [setting]
    rw [if_neg]
    rintro ⟨h1, -⟩
    exact h h1
  | _ => simp [setting, mkind]

theorem changed_agree (o : Off) : OffsetAgrees o.mappingChanged := agree_set _ _

theorem changed_same (o : Off) (h : OffsetAgrees o) : o.mappingChanged.offset = o.offset := ((agree_iff o).1 h).symm

theorem step_offset {root : ℚ → ℚ} {s : State} {c : Call} {r : Bool × State} (h : s.step root c = some r) (ht : ¬ touches c)
    (ha : OffsetAgrees s.off) : OffsetAgrees r.2.off ∧ r.2.off.offset = lastOffset s.off.offset [c] := by
  obtain ⟨b, s'⟩ := r
  cases c with
  | setMIPOffset v =>
    simp only [State.step, Option.some.injEq, Prod.mk.injEq] at h
    obtain ⟨-, rfl⟩ := h
    exact ⟨agree_set _ _, rfl⟩
  | setMapping m =>
    simp only [State.step, Option.map_eq_some_iff, Prod.mk.injEq] at h
    obtain ⟨x, hx, -, rfl⟩ := h
    rw [(setMapping_off hx).1]
    exact ⟨changed_agree _, changed_same _ ha⟩
  | metadata op =>
    simp only [State.step, Option.some.injEq, Prod.mk.injEq] at h
    obtain ⟨-, rfl⟩ := h
    refine ⟨?_, rfl⟩
    unfold OffsetAgrees
    simp only
    rw [untouched _ op ht]
    exact ha
  | setup fields =>
    rcases setup_off (h : s.setup root _ _ = _) with ⟨-, e⟩ | ⟨-, e, -⟩ <;> simp only [e]
    · exact ⟨changed_agree _, changed_same _ ha⟩
    · exact ⟨ha, rfl⟩
  | setupLazyLoad fields =>
    rcases setup_off (h : s.setup root _ _ = _) with ⟨-, e⟩ | ⟨-, e, -⟩ <;> simp only [e]
    · exact ⟨changed_agree _, changed_same _ ha⟩
    · exact ⟨ha, rfl⟩
  | level i =>
    simp only [State.step, Option.map_eq_some_iff, Prod.mk.injEq] at h
    obtain ⟨x, hx, -, rfl⟩ := h
    rw [(level_off hx).1]
    exact ⟨ha, rfl⟩

theorem lastOffset_cons (v : V3i) (c : Call) (cs : List Call) : lastOffset v (c :: cs) = lastOffset (lastOffset v [c]) cs := by
  cases c <;> rfl

theorem run_offset {root : ℚ → ℚ} : ∀ (cs : List Call) {s s' : State}, s.run root cs = some s' → (∀ c ∈ cs, ¬ touches c) →
    OffsetAgrees s.off → OffsetAgrees s'.off ∧ s'.off.offset = lastOffset s.off.offset cs
  | [], _, _, h, _, ha => by cases h; exact ⟨ha, rfl⟩
  | c :: cs, s, s', h, ht, ha => by
    simp only [State.run, Option.bind_eq_some_iff] at h
    obtain ⟨r, hr, h⟩ := h
    obtain ⟨h1, h2⟩ := step_offset hr (ht c (by simp)) ha
    obtain ⟨h3, h4⟩ := run_offset cs h (fun c hc => ht c (by simp [hc])) h1
    refine ⟨h3, ?_⟩
    rw [lastOffset_cons, ← h2, h4]

/-- **C76.** Whatever is done with a MIP field, unless its metadata is replaced or the entry with the offset is set by hand:
the offset it reports is the one given last to `setMIPOffset` (zero if none was given), and it is the one in the metadata, with
which files are written. -/
theorem C76_offset (root : ℚ → ℚ) (cs : List Call) (s : State) (h : State.new.run root cs = some s)
    (ht : ∀ c ∈ cs, ¬ touches c) : s.off.offset = lastOffset ⟨0, 0, 0⟩ cs ∧ OffsetAgrees s.off := by
  obtain ⟨h1, h2⟩ := run_offset cs h ht (.inr ⟨rfl, rfl⟩)
  exact ⟨h2, h1⟩

/-- Whether a call sets a mapping. -/
def setsMapping : Call → Prop
  | .setMapping _ => True
  | .setup _ => True
  | .setupLazyLoad _ => True
  | _ => False

theorem mip_run_append {root : ℚ → ℚ} : ∀ (as bs : List Call) (s : State), s.run root (as ++ bs) =
    (s.run root as).bind fun s => s.run root bs
  | [], _, _ => rfl
  | a :: as, bs, s => by
    simp only [List.cons_append, State.run]
    cases s.step root a with
    | none => rfl
    | some r => exact mip_run_append as bs r.2

/-- **C76.** A mapping that is set, or levels that are set up, make the reported offset that of the metadata, whatever happened
before: so an offset that is read from a file with the metadata takes effect. -/
theorem C76_offset_taken (root : ℚ → ℚ) (cs : List Call) (c : Call) (hc : setsMapping c) (s : State) (b : Bool) (s' : State)
    (_ : State.new.run root cs = some s) (h' : s.step root c = some (b, s')) (hb : b = true) :
    OffsetAgrees s'.off ∧ s'.off.offset = ((match lookup s.off.info kMipOffset .vecInt with | some (.vecInt v) => v | _ => ⟨0, 0, 0⟩) : V3i) := by
  have key : s'.off = s.off.mappingChanged := by
    cases c with
    | setMapping m =>
      simp only [State.step, Option.map_eq_some_iff, Prod.mk.injEq] at h'
      obtain ⟨x, hx, -, rfl⟩ := h'
      exact (setMapping_off hx).1
    | setup fields => 
      rcases setup_off (h' : s.setup root _ _ = _) with ⟨-, e⟩ | ⟨e, -⟩
      · exact e
      · rw [hb] at e; cases e
    | setupLazyLoad fields => 
      rcases setup_off (h' : s.setup root _ _ = _) with ⟨-, e⟩ | ⟨e, -⟩
      · exact e
      · rw [hb] at e; cases e
    | _ => exact hc.elim
  rw [key]
  refine ⟨changed_agree _, ?_⟩
  show s.off.stored = _
  unfold Off.stored Metadata.Meta.getVecInt
  simp only [lookup]
  cases s.off.info.vecInt.get kMipOffset <;> rfl

/-! ## The levels -/

/-- Every level in memory has the mapping that `mappingChanged` or loading makes for the offset. -/
def PlacedBy (root : ℚ → ℚ) (m : Map) (off : V3i) (l : List Slot) : Prop :=
  ∀ i e m' info, l[i]? = some (.loaded e m' info) →
    levelMapping root m off e i = some m' ∨ loadedMapping root m off e i = some m'

/-- The levels have the same extents. -/
def slotExtents : Slot → Option Box3i
  | .absent => none
  | .waiting e => some e
  | .loaded e _ _ => some e

theorem placeSlots_spec {root : ℚ → ℚ} {m : Map} {off : V3i} : ∀ (l : List Slot) (i : ℕ) (l' : List Slot),
    placeSlots root m off i l = some l' → l'.map slotExtents = l.map slotExtents ∧
      ∀ j e m' info, l'[j]? = some (.loaded e m' info) → levelMapping root m off e (i + j) = some m'
  | [], i, l', h => by
    simp only [placeSlots, Option.some.injEq] at h
    subst h
    simp
  | .loaded e m0 info :: l, i, l', h => by
    simp only [placeSlots, Option.bind_eq_some_iff, Option.map_eq_some_iff] at h
    obtain ⟨m', h1, l'', h2, rfl⟩ := h
    obtain ⟨h3, h4⟩ := placeSlots_spec l (i + 1) l'' h2
    refine ⟨by simp [h3, slotExtents], fun j e' m'' info' hj => ?_⟩
    cases j with
    | zero =>
      simp only [List.getElem?_cons_zero, Option.some.injEq, Slot.loaded.injEq] at hj
      obtain ⟨rfl, rfl, -⟩ := hj
      exact h1
    | succ j =>
      have := h4 j e' m'' info' hj
      rwa [show i + 1 + j = i + (j + 1) by omega] at this
  | .absent :: l, i, l', h => by
    simp only [placeSlots, Option.map_eq_some_iff] at h
    obtain ⟨l'', h2, rfl⟩ := h
    obtain ⟨h3, h4⟩ := placeSlots_spec l (i + 1) l'' h2
    refine ⟨by simp [h3, slotExtents], fun j e' m'' info' hj => ?_⟩
    cases j with
    | zero => simp at hj
    | succ j =>
      have := h4 j e' m'' info' hj
      rwa [show i + 1 + j = i + (j + 1) by omega] at this
  | .waiting e :: l, i, l', h => by
    simp only [placeSlots, Option.map_eq_some_iff] at h
    obtain ⟨l'', h2, rfl⟩ := h
    obtain ⟨h3, h4⟩ := placeSlots_spec l (i + 1) l'' h2
    refine ⟨by simp [h3, slotExtents], fun j e' m'' info' hj => ?_⟩
    cases j with
    | zero => simp at hj
    | succ j =>
      have := h4 j e' m'' info' hj
      rwa [show i + 1 + j = i + (j + 1) by omega] at this

theorem changed_placed {root : ℚ → ℚ} {s s' : State} (h : s.mappingChanged root = some s') :
    PlacedBy root s'.map s'.off.offset s'.slots ∧ s'.slots.map slotExtents = s.slots.map slotExtents := by
  have ho := changed_off h
  unfold State.mappingChanged at h
  split at h
  · simp at h
  · rw [Option.map_eq_some_iff] at h
    obtain ⟨l, hl, rfl⟩ := h
    obtain ⟨h1, h2⟩ := placeSlots_spec _ _ _ hl
    refine ⟨fun i e m' info hi => .inl ?_, h1⟩
    have := h2 i e m' info hi
    rw [Nat.zero_add] at this
    rwa [← (agree_iff _).1 (changed_agree s.off)] at this

/-- Level 0 has the extents of the field. -/
def ZeroFits (s : State) : Prop := ∀ x, s.slots.head?.bind slotExtents = some x → x = s.extents

theorem head_extents (l : List Slot) : l.head?.bind slotExtents = (l.map slotExtents).head?.bind id := by
  cases l <;> rfl

theorem changed_zero {root : ℚ → ℚ} {s s' : State} (h : s.mappingChanged root = some s') (hz : ZeroFits s) : ZeroFits s' := by
  have h1 := (changed_placed h).2
  have h2 := (changed_off h).2.1
  intro x hx
  rw [h2]
  apply hz
  rw [head_extents, ← h1, ← head_extents]
  exact hx

theorem setMapping_zero {root : ℚ → ℚ} {s s' : State} {m : Option Map} (h : s.setMapping root m = some s') (hz : ZeroFits s) :
    ZeroFits s' := by
  cases m with
  | none => exact changed_zero h hz
  | some m =>
    simp only [State.setMapping, Option.bind_eq_some_iff] at h
    obtain ⟨m', -, h⟩ := h
    exact changed_zero h hz

theorem setup_zero {root : ℚ → ℚ} {s s' : State} {slot : Given → Slot} (hs : ∀ f, slotExtents (slot f) = some f.extents)
    {fields : List Given} {b : Bool} (h : s.setup root slot fields = some (b, s')) : ZeroFits s' := by
  unfold State.setup at h
  split at h
  · simp only [Option.some.injEq, Prod.mk.injEq] at h
    obtain ⟨rfl, rfl⟩ := h
    intro x hx; simp at hx
  · split at h
    · rw [Option.map_eq_some_iff] at h
      obtain ⟨x, hx, h⟩ := h
      simp only [Prod.mk.injEq] at h
      obtain ⟨rfl, rfl⟩ := h
      refine setMapping_zero hx ?_
      intro y hy
      simp only [List.map_cons, List.head?_cons, Option.bind_some, hs, Option.some.injEq] at hy
      exact hy.symm
    · simp only [Option.some.injEq, Prod.mk.injEq] at h
      obtain ⟨rfl, rfl⟩ := h
      intro x hx; simp at hx

theorem level_slots {root : ℚ → ℚ} {s s' : State} {i : ℕ} (h : s.level root i = some s') :
    s'.slots.map slotExtents = s.slots.map slotExtents ∧ (PlacedBy root s.map s.off.stored s.slots →
      PlacedBy root s.map s.off.stored s'.slots) := by
  unfold State.level at h
  split at h
  · rename_i e he
    rw [Option.map_eq_some_iff] at h
    obtain ⟨m, hm, rfl⟩ := h
    constructor
    · simp only [List.map_set, slotExtents]
      apply List.ext_getElem?
      intro j
      rw [List.getElem?_set]
      split
      · rename_i hj
        subst hj
        rw [List.getElem?_map, he]
        have : i < s.slots.length := (List.getElem?_eq_some_iff.1 he).1
        simp [slotExtents, this]
      · rfl
    · intro hp j e' m' info hj
      simp only at hj
      rw [List.getElem?_set] at hj
      split at hj
      · rename_i hij
        subst hij
        split at hj
        · simp only [Option.some.injEq, Slot.loaded.injEq] at hj
          obtain ⟨rfl, rfl, -⟩ := hj
          exact .inr hm
        · simp at hj
      · exact hp j e' m' info hj
  · cases h; exact ⟨rfl, id⟩
  · simp at h

theorem step_zero {root : ℚ → ℚ} {s : State} {c : Call} {r : Bool × State} (h : s.step root c = some r) (hz : ZeroFits s) :
    ZeroFits r.2 := by
  obtain ⟨b, s'⟩ := r
  cases c with
  | setMIPOffset v =>
    simp only [State.step, Option.some.injEq, Prod.mk.injEq] at h
    obtain ⟨-, rfl⟩ := h
    exact hz
  | setMapping m =>
    simp only [State.step, Option.map_eq_some_iff, Prod.mk.injEq] at h
    obtain ⟨x, hx, -, rfl⟩ := h
    exact setMapping_zero hx hz
  | metadata op =>
    simp only [State.step, Option.some.injEq, Prod.mk.injEq] at h
    obtain ⟨-, rfl⟩ := h
    exact hz
  | setup fields => exact setup_zero (fun _ => rfl) (h : s.setup root _ _ = _)
  | setupLazyLoad fields => exact setup_zero (fun _ => rfl) (h : s.setup root _ _ = _)
  | level i =>
    simp only [State.step, Option.map_eq_some_iff, Prod.mk.injEq] at h
    obtain ⟨x, hx, -, rfl⟩ := h
    intro y hy
    rw [(level_off hx).2.1]
    apply hz
    rw [head_extents, ← (level_slots hx).1, ← head_extents]
    exact hy

theorem run_zero {root : ℚ → ℚ} : ∀ (cs : List Call) {s s' : State}, s.run root cs = some s' → ZeroFits s → ZeroFits s'
  | [], _, _, h, hz => by cases h; exact hz
  | c :: cs, s, s', h, hz => by
    simp only [State.run, Option.bind_eq_some_iff] at h
    obtain ⟨r, hr, h⟩ := h
    exact run_zero cs h (step_zero hr hz)

/-- Calls after which the levels are still where the offset says: levels that are used, and other metadata. -/
def calm : Call → Prop
  | .level _ => True
  | .metadata op => ¬ touches (.metadata op)
  | _ => False

theorem step_calm {root : ℚ → ℚ} {s : State} {c : Call} {r : Bool × State} (h : s.step root c = some r) (hc : calm c)
    (ha : OffsetAgrees s.off) (hp : PlacedBy root s.map s.off.offset s.slots) :
    OffsetAgrees r.2.off ∧ PlacedBy root r.2.map r.2.off.offset r.2.slots ∧ r.2.map = s.map ∧ r.2.extents = s.extents ∧
      r.2.off.offset = s.off.offset := by
  obtain ⟨b, s'⟩ := r
  cases c with
  | metadata op =>
    have := step_offset h hc ha
    simp only [State.step, Option.some.injEq, Prod.mk.injEq] at h
    obtain ⟨-, rfl⟩ := h
    exact ⟨this.1, hp, rfl, rfl, rfl⟩
  | level i =>
    simp only [State.step, Option.map_eq_some_iff, Prod.mk.injEq] at h
    obtain ⟨x, hx, -, rfl⟩ := h
    have ho := level_off hx
    simp only
    rw [ho.1, ho.2.2]
    refine ⟨ha, ?_, rfl, ho.2.1, rfl⟩
    rw [(agree_iff _).1 ha] at hp ⊢
    exact (level_slots hx).2 hp
  | _ => exact hc.elim

theorem run_calm {root : ℚ → ℚ} : ∀ (cs : List Call) {s s' : State}, s.run root cs = some s' → (∀ c ∈ cs, calm c) →
    OffsetAgrees s.off → PlacedBy root s.map s.off.offset s.slots →
    OffsetAgrees s'.off ∧ PlacedBy root s'.map s'.off.offset s'.slots ∧ s'.map = s.map ∧ s'.extents = s.extents ∧
      s'.off.offset = s.off.offset
  | [], _, _, h, _, ha, hp => by cases h; exact ⟨ha, hp, rfl, rfl, rfl⟩
  | c :: cs, s, s', h, hc, ha, hp => by
    simp only [State.run, Option.bind_eq_some_iff] at h
    obtain ⟨r, hr, h⟩ := h
    obtain ⟨h1, h2, h3, h4, h5⟩ := step_calm hr (hc c (by simp)) ha hp
    obtain ⟨k1, k2, k3, k4, k5⟩ := run_calm cs h (fun c hc' => hc c (by simp [hc'])) h1 h2
    exact ⟨k1, k2, k3.trans h3, k4.trans h4, k5.trans h5⟩

theorem run_without_levels {root : ℚ → ℚ} : ∀ (cs : List Call) {s s' : State}, s.run root cs = some s' → (∀ c ∈ cs, calm c) →
    s.slots = [] → s'.slots = []
  | [], _, _, h, _, hs => by cases h; exact hs
  | c :: cs, s, s', h, hc, hs => by
    simp only [State.run, Option.bind_eq_some_iff] at h
    obtain ⟨⟨b, r⟩, hr, h⟩ := h
    refine run_without_levels cs h (fun c hc' => hc c (by simp [hc'])) ?_
    have := hc c (by simp)
    cases c with
    | metadata op =>
      simp only [State.step, Option.some.injEq, Prod.mk.injEq] at hr
      obtain ⟨-, rfl⟩ := hr
      exact hs
    | level i => simp [State.step, State.level, hs] at hr
    | _ => exact this.elim

/-- The mapping a call is given: by `setup` that of the first level. -/
def givenMap : Call → Option Map
  | .setMapping m => m
  | .setup (g :: _) => some g.map
  | .setupLazyLoad (g :: _) => some g.map
  | _ => none

theorem setMapping_map {root : ℚ → ℚ} {s s' : State} {m : Map} (h : s.setMapping root (some m) = some s') :
    OffsetAgrees s'.off ∧ PlacedBy root s'.map s'.off.offset s'.slots ∧ Copy.setExtents m s'.extents = some s'.map := by
  have ho := setMapping_off h
  simp only [State.setMapping, Option.bind_eq_some_iff] at h
  obtain ⟨m', h1, h⟩ := h
  refine ⟨ho.1 ▸ changed_agree _, (changed_placed h).1, ?_⟩
  rw [(changed_off h).2.2.2, ho.2.1]
  exact h1

theorem setup_map {root : ℚ → ℚ} {s s' : State} {slot : Given → Slot} {g : Given} {gs : List Given} {b : Bool}
    (h : s.setup root slot (g :: gs) = some (b, s')) : s'.slots = [] ∨
      (OffsetAgrees s'.off ∧ PlacedBy root s'.map s'.off.offset s'.slots ∧ Copy.setExtents g.map s'.extents = some s'.map) := by
  rcases setup_off h with ⟨-, -⟩ | ⟨-, -, e⟩
  · unfold State.setup at h
    simp only at h
    split at h
    · rw [Option.map_eq_some_iff] at h
      obtain ⟨x, hx, h⟩ := h
      simp only [Prod.mk.injEq] at h
      obtain ⟨-, rfl⟩ := h
      exact .inr (setMapping_map hx)
    · simp only [Option.some.injEq, Prod.mk.injEq] at h
      obtain ⟨-, rfl⟩ := h
      exact .inl rfl
  · exact .inl e

theorem settled {root : ℚ → ℚ} {pre : List Call} {c : Call} {cs : List Call} {m : Map} (hg : givenMap c = some m)
    (hc : ∀ c ∈ cs, calm c) {s : State} (h : State.new.run root (pre ++ c :: cs) = some s) : ZeroFits s ∧ (s.slots = [] ∨
      (OffsetAgrees s.off ∧ PlacedBy root s.map s.off.offset s.slots ∧ Copy.setExtents m s.extents = some s.map)) := by
  refine ⟨run_zero _ h (by intro x hx; simp [State.new, slotExtents] at hx), ?_⟩
  rw [mip_run_append, Option.bind_eq_some_iff] at h
  obtain ⟨s0, -, h⟩ := h
  simp only [State.run, Option.bind_eq_some_iff] at h
  obtain ⟨⟨b, s1⟩, h1, h2⟩ := h
  have key : s1.slots = [] ∨ (OffsetAgrees s1.off ∧ PlacedBy root s1.map s1.off.offset s1.slots ∧
      Copy.setExtents m s1.extents = some s1.map) := by
    cases c with
    | setMapping x =>
      simp only [givenMap] at hg
      subst hg
      simp only [State.step, Option.map_eq_some_iff, Prod.mk.injEq] at h1
      obtain ⟨x, hx, -, rfl⟩ := h1
      exact .inr (setMapping_map hx)
    | setup fs =>
      cases fs with
      | nil => simp [givenMap] at hg
      | cons g gs =>
        simp only [givenMap, Option.some.injEq] at hg
        subst hg
        exact setup_map (show s0.setup root (fun f => .loaded f.extents f.map f.info) _ = _ from h1)
    | setupLazyLoad fs =>
      cases fs with
      | nil => simp [givenMap] at hg
      | cons g gs =>
        simp only [givenMap, Option.some.injEq] at hg
        subst hg
        exact setup_map (show s0.setup root (fun f => .waiting f.extents) _ = _ from h1)
    | _ => simp [givenMap] at hg
  rcases key with k | ⟨k1, k2, k3⟩
  · exact .inl (run_without_levels cs h2 hc k)
  · obtain ⟨a, b, c, d, -⟩ := run_calm cs h2 hc k1 k2
    exact .inr ⟨a, b, by rw [c, d]; exact k3⟩

theorem run_extents (f : Frame) (ops : List Op) (e : Box3i) : Matrix.run f (ops ++ [.setExtents e]) =
    (Matrix.run f ops).setExtents e := by
  unfold Matrix.run
  rw [List.foldl_append]
  rfl

theorem frame_extents (f : Frame) (ops : List Op) (e : Box3i) : frameOf f (ops ++ [.setExtents e]) = Frame.ofExtents e := by
  unfold frameOf
  rw [List.foldl_append]
  rfl

/-- **C76, the levels are where the offset says.** Take any history of calls on a MIP field, in which the last mapping that
was set (directly or with the levels) is a matrix mapping as in C73, and after which nothing was done but using levels and
setting other metadata. For every level in memory, whether it was there before or was loaded since, the voxel coordinates of a
world point in the level are those that sampling uses (`getVsMIPCoord`), with the offset the field reports. -/
theorem C76_levels_agree (root : ℚ → ℚ) (hr : Lengths root) (pre : List Call) (c : Call) (cs : List Call)
    (hc : ∀ c ∈ cs, calm c) (f : Frame) (ops : List Op) (hg : givenMap c = some (.matrix (Matrix.run f ops)))
    (hne : history ops ≠ []) (ha : ∀ s ∈ history ops, Affine s.2) (hs : SteadyEdges (history ops)) (s : State)
    (h : State.new.run root (pre ++ c :: cs) = some s) (he0 : Proper s.extents) (hm0 : s.extents.min = V3i.all 0)
    (i : ℕ) (e : Box3i) (m' : Map) (info : Meta) (hi : s.slots[i]? = some (.loaded e m' info)) (he : Proper e)
    (hm : e.min = V3i.all 0) (t : ℚ) (ht : (transformAt (history ops) t).det ≠ 0) (w : V3q) :
    ∃ m n p, s.map = .matrix m ∧ m' = .matrix n ∧ m.worldToVoxelAt w t = some p ∧
      n.worldToVoxelAt w t = some (mipCoord s.off.offset i p) := by
  obtain ⟨hz, hk⟩ := settled hg hc h
  rcases hk with hk | ⟨-, hp, hmap⟩
  · rw [hk] at hi; simp at hi
  have hmap' : s.map = .matrix (Matrix.run f (ops ++ [.setExtents s.extents])) := by
    simp only [Copy.setExtents, Option.some.injEq] at hmap
    rw [← hmap, run_extents]
  have hh : history (ops ++ [.setExtents s.extents]) = history ops := by rw [history_snoc]
  have hf : frameOf f (ops ++ [.setExtents s.extents]) = Frame.ofExtents s.extents :=
    frame_extents _ _ _
  obtain ⟨n, h1, p, h2, h3, -⟩ := C73_cells root hr f (ops ++ [.setExtents s.extents]) s.extents he0 hf (by rwa [hh])
    (by rwa [hh]) (by rwa [hh]) s.off.offset i e he hm0 hm t (by rwa [hh]) w
  have hpl := hp i e m' info hi
  rw [hmap'] at hpl
  rcases hpl with hpl | hpl
  · by_cases h0 : i = 0
    · subst h0
      have hee : e = s.extents := by
        apply hz
        rw [List.head?_eq_getElem?, hi]
        rfl
      rw [levelMapping, if_pos rfl] at hpl
      simp only [Copy.setExtents, Option.some.injEq] at hpl
      refine ⟨_, _, p, hmap', hpl.symm, h2, ?_⟩
      have e1 : (Matrix.run f (ops ++ [.setExtents s.extents])).setExtents e =
          Matrix.run f (ops ++ [.setExtents s.extents] ++ [.setExtents e]) := by
        exact (run_extents _ _ _).symm
      have e2 : history (ops ++ [.setExtents s.extents] ++ [.setExtents e]) = history (ops ++ [.setExtents s.extents]) := by
        rw [history_snoc]
      have e3 : frameOf f (ops ++ [.setExtents s.extents] ++ [.setExtents e]) = frameOf f (ops ++ [.setExtents s.extents]) := by
        rw [frame_extents, hf, hee]
      rw [e1, (run_at _ _ t w).2.2.2.1, e2, e3, ← (run_at _ _ t w).2.2.2.1, h2]
      congr 1
      apply V3q.ext' <;> simp [mipCoord, mipCoord1]
    · rw [levelMapping, if_neg h0] at hpl
      rw [loadedMapping, hpl] at h1
      simp only [Option.some.injEq] at h1
      exact ⟨_, n, p, hmap', h1, h2, h3⟩
  · rw [hpl] at h1
    simp only [Option.some.injEq] at h1
    exact ⟨_, n, p, hmap', h1, h2, h3⟩

/-! ## Setting up -/

theorem placeSlots_some {root : ℚ → ℚ} {m : Map} {off : V3i} : ∀ (l : List Slot) (i : ℕ),
    (∀ j e m0 info, l[j]? = some (.loaded e m0 info) → ∃ m', levelMapping root m off e (i + j) = some m') →
    ∃ l', placeSlots root m off i l = some l'
  | [], i, _ => ⟨[], rfl⟩
  | x :: l, i, h => by
    obtain ⟨l', hl⟩ := placeSlots_some l (i + 1) (fun j e m0 info hj => by
      obtain ⟨m', hm⟩ := h (j + 1) e m0 info hj
      exact ⟨m', by rw [← hm]; congr 1; omega⟩)
    cases x with
    | loaded e m0 info =>
      obtain ⟨m', hm⟩ := h 0 e m0 info rfl
      rw [Nat.add_zero] at hm
      exact ⟨_, by rw [placeSlots, hm, hl]; rfl⟩
    | absent => exact ⟨_, by simp only [placeSlots, hl, Option.map_some]; rfl⟩
    | waiting e => exact ⟨_, by simp only [placeSlots, hl, Option.map_some]; rfl⟩

/-- The metadata of the levels in memory. -/
def slotInfo : Slot → Option Meta
  | .loaded _ _ info => some info
  | _ => none

theorem placeSlots_info {root : ℚ → ℚ} {m : Map} {off : V3i} : ∀ (l : List Slot) (i : ℕ) (l' : List Slot),
    placeSlots root m off i l = some l' → l'.map slotInfo = l.map slotInfo
  | [], i, l', h => by
    simp only [placeSlots, Option.some.injEq] at h
    subst h
    rfl
  | .loaded e m0 info :: l, i, l', h => by
    simp only [placeSlots, Option.bind_eq_some_iff, Option.map_eq_some_iff] at h
    obtain ⟨m', h1, l'', h2, rfl⟩ := h
    simp [placeSlots_info l (i + 1) l'' h2, slotInfo]
  | .absent :: l, i, l', h => by
    simp only [placeSlots, Option.map_eq_some_iff] at h
    obtain ⟨l'', h2, rfl⟩ := h
    simp [placeSlots_info l (i + 1) l'' h2, slotInfo]
  | .waiting e :: l, i, l', h => by
    simp only [placeSlots, Option.map_eq_some_iff] at h
    obtain ⟨l'', h2, rfl⟩ := h
    simp [placeSlots_info l (i + 1) l'' h2, slotInfo]

/-- Levels that can be set up: they shrink, and the first has a matrix mapping as in C73. -/
structure GoodLevels (f : Frame) (ops : List Op) (g : Given) (gs : List Given) : Prop where
  map : g.map = .matrix (Matrix.run f ops)
  some : history ops ≠ []
  affine : ∀ s ∈ history ops, Affine s.2
  steady : SteadyEdges (history ops)
  proper : ∀ x ∈ g :: gs, Proper x.extents
  shrinks : Shrinks g.extents.size (gs.map fun x => x.extents.size)

theorem set_up {root : ℚ → ℚ} (hr : Lengths root) {f : Frame} {ops : List Op} {g : Given} {gs : List Given}
    (hg : GoodLevels f ops g gs) (slot : Given → Slot) (hs : ∀ x, slotExtents (slot x) = some x.extents) (s : State) :
    ∃ s', s.setup root slot (g :: gs) = some (true, s') ∧ s'.off = s.off.mappingChanged ∧ s'.extents = g.extents ∧
      s'.dw = g.dw ∧ s'.slots.map slotExtents = (g :: gs).map (fun x => some x.extents) ∧
      s'.slots.map slotInfo = (g :: gs).map (fun x => slotInfo (slot x)) := by
  have hl : ∀ j e m0 info, ((g :: gs).map slot)[j]? = some (.loaded e m0 info) → ∃ m', levelMapping root
      (.matrix (Matrix.run f (ops ++ [.setExtents g.extents]))) s.off.mappingChanged.stored e (0 + j) = some m' := by
    intro j e m0 info hj
    rw [List.getElem?_map, Option.map_eq_some_iff] at hj
    obtain ⟨x, hx, hj⟩ := hj
    have hee : e = x.extents := by
      have := hs x
      rw [hj] at this
      simpa [slotExtents] using this
    have hh : history (ops ++ [.setExtents g.extents]) = history ops := by rw [history_snoc]
    obtain ⟨m', h1, -⟩ := C73_matrix root hr f (ops ++ [.setExtents g.extents]) g.extents (hg.proper g (by simp))
      (frame_extents _ _ _) (hh ▸ hg.some) (hh ▸ hg.affine) (hh ▸ hg.steady) s.off.mappingChanged.stored (0 + j) e
      (hee ▸ hg.proper x (List.mem_of_getElem? hx)) (fun h0 => by
        rw [Nat.zero_add] at h0
        subst h0
        simp only [List.getElem?_cons_zero, Option.some.injEq] at hx
        rw [hee, hx])
    exact ⟨_, h1⟩
  obtain ⟨l', hl'⟩ := placeSlots_some ((g :: gs).map slot) 0 hl
  refine ⟨⟨s.off.mappingChanged, g.extents, g.dw, .matrix (Matrix.run f (ops ++ [.setExtents g.extents])), l'⟩, ?_, rfl,
    rfl, rfl, ?_, ?_⟩
  · unfold State.setup
    simp only [shrinks_decreasing _ _ hg.shrinks, if_true, State.setMapping, hg.map, Copy.setExtents, Option.bind_some]
    rw [← run_extents]
    unfold State.mappingChanged
    simp only [List.map_cons]
    simp only [List.map_cons] at hl'
    rw [hl']
    rfl
  · rw [(placeSlots_spec _ _ _ hl').1]
    simp [hs]
  · rw [placeSlots_info _ _ _ hl']
    simp

/-- **C76, `makeMIP`.** The MIP field that is made of levels has the offset that was asked for, reports it, and has it in its
metadata; all other metadata is that of the base. It has the windows of the first level, and all the levels. -/
theorem C76_make (root : ℚ → ℚ) (hr : Lengths root) (f : Frame) (ops : List Op) (g : Given) (gs : List Given)
    (hg : GoodLevels f ops g gs) (info : Meta) (off : V3i) :
    ∃ s, State.new.run root (makeMIPCalls info off (g :: gs)) = some s ∧ s.off.offset = off ∧
      (∀ n k, lookup s.off.info n k = if n = kMipOffset ∧ k = .vecInt then some (.vecInt off) else lookup info n k) ∧
      s.extents = g.extents ∧ s.dw = g.dw ∧ s.slots.map slotExtents = (g :: gs).map (fun x => some x.extents) ∧
      s.slots.map slotInfo = (g :: gs).map (fun x => some x.info) := by
  obtain ⟨s, h1, h2, h3, h4, h5, h6⟩ := set_up hr hg (fun f => .loaded f.extents f.map f.info) (fun _ => rfl)
    { State.new with off := (⟨⟨0, 0, 0⟩, info⟩ : Off).setMIPOffset off }
  refine ⟨s, ?_, ?_, ?_, h3, h4, h5, h6⟩
  · show ((State.setup root _ _ (g :: gs)).bind fun r => some r.2) = some s
    have := congrArg (fun x => x.bind fun r => some r.2) h1
    exact this
  · rw [h2, Off.mappingChanged, stored_set]
    rfl
  · intro n k
    rw [h2, Off.mappingChanged, stored_set]
    cases k <;> simp [Off.setMIPOffset, lookup, Metadata.Meta.setVecInt, get_set]
    by_cases h : n = kMipOffset
    · simp [h]
    · simp [h, Ne.symm h]

theorem set_up_lazily {root : ℚ → ℚ} (hr : Lengths root) {f : Frame} {ops : List Op} {g : Given} {gs : List Given}
    (hg : GoodLevels f ops g gs) (i : ℕ) (hi : i < (g :: gs).length) (s0 : State) :
    ∃ s, s0.setup root (fun f => .waiting f.extents) (g :: gs) = some (true, s) ∧ s.off = s0.off.mappingChanged ∧
      s.slots[i]? = some (.waiting (g :: gs)[i].extents) ∧
      s.map = .matrix (Matrix.run f (ops ++ [.setExtents g.extents])) := by
  obtain ⟨s, h1, h2, h3, h4, h5, h6⟩ := set_up hr hg (fun f => .waiting f.extents) (fun _ => rfl) s0
  have he : (s.slots.map slotExtents)[i]? = some (some (g :: gs)[i].extents) := by
    rw [h5, List.getElem?_map, List.getElem?_eq_getElem hi]; rfl
  have hf : (s.slots.map slotInfo)[i]? = some none := by
    rw [h6, List.getElem?_map, List.getElem?_eq_getElem hi]; rfl
  rw [List.getElem?_map, Option.map_eq_some_iff] at he hf
  obtain ⟨x, hx, he⟩ := he
  obtain ⟨y, hy, hf⟩ := hf
  rw [hx] at hy
  cases hy
  have hw : x = .waiting (g :: gs)[i].extents := by
    cases x <;> simp_all [slotExtents, slotInfo]
  subst hw
  have hmap : s.map = .matrix (Matrix.run f (ops ++ [.setExtents g.extents])) := by
    rcases setup_map h1 with h | ⟨-, -, h⟩
    · rw [h] at hx; simp at hx
    · rw [hg.map, h3, Copy.setExtents, Option.some.injEq] at h
      rw [← h, run_extents]
  exact ⟨s, h1, h2, hx, hmap⟩

/-- **C76, lazy levels.** Levels that are to be loaded later can be set up likewise, and then every level can be used. -/
theorem C76_lazy (root : ℚ → ℚ) (hr : Lengths root) (f : Frame) (ops : List Op) (g : Given) (gs : List Given)
    (hg : GoodLevels f ops g gs) (pre : List Call) (s0 : State) (h0 : State.new.run root pre = some s0) (i : ℕ)
    (hi : i < (g :: gs).length) :
    ∃ s, State.new.run root (pre ++ [.setupLazyLoad (g :: gs), .level i]) = some s ∧ s.off.offset = s0.off.stored ∧
      ∃ m, s.slots[i]? = some (.loaded (g :: gs)[i].extents m s.off.info) := by
  obtain ⟨s, h1, h2, hx, hmap⟩ := set_up_lazily hr hg i hi s0
  have hh : history (ops ++ [.setExtents g.extents]) = history ops := by rw [history_snoc]
  obtain ⟨-, -, ⟨m, hm, -⟩, -⟩ := C73_matrix root hr f (ops ++ [.setExtents g.extents]) g.extents (hg.proper g (by simp))
    (frame_extents _ _ _) (hh ▸ hg.some) (hh ▸ hg.affine) (hh ▸ hg.steady) s.off.stored i (g :: gs)[i].extents
    (hg.proper _ (List.getElem_mem hi)) (fun h0 => by subst h0; rfl)
  refine ⟨{ s with slots := s.slots.set i (.loaded (g :: gs)[i].extents (.matrix m) s.off.info) }, ?_, ?_, .matrix m, ?_⟩
  · rw [mip_run_append, h0]
    show ((State.setup root s0 (fun f => .waiting f.extents) (g :: gs)).bind fun r =>
      ((r.2.level root i).map fun s => (true, s)).bind fun r => some r.2) = _
    rw [h1]
    simp only [Option.bind_some, State.level, hx, hmap, hm]
    rfl
  · simp only [h2]; rfl
  · simp only
    rw [List.getElem?_set_self (List.getElem?_eq_some_iff.1 hx).1]

/-- **C76, refused levels.** Levels that are missing or do not shrink are refused with an exception, but only after the levels
the field had are gone: the field then has none. -/
theorem C76_refused (root : ℚ → ℚ) (s : State) (fields : List Given)
    (h : ∀ g gs, fields = g :: gs → ¬ Shrinks g.extents.size (gs.map fun x => x.extents.size)) :
    s.step root (.setup fields) = some (false, { s with slots := [] }) ∧
      s.step root (.setupLazyLoad fields) = some (false, { s with slots := [] }) := by
  have key : ∀ slot, s.setup root slot fields = some (false, { s with slots := [] }) := by
    intro slot
    unfold State.setup
    cases fields with
    | nil => rfl
    | cons g gs =>
      simp only
      rw [if_neg]
      intro hd
      exact h g gs rfl (decreasing_shrinks _ _ hd)
  exact ⟨key _, key _⟩

/-- **C76, a fault.** Setting a mapping on a field whose levels were refused is undefined: `mappingChanged` looks at level 0
without asking whether there is one. -/
theorem C76_refused_then_mapped (root : ℚ → ℚ) (s : State) (m : Map) : 
    ({ s with slots := [] } : State).step root (.setMapping (some m)) = none := by
  simp only [State.step, State.setMapping, State.mappingChanged]
  cases Copy.setExtents m s.extents <;> rfl

/-- **C76, a fault.** A new MIP field says that it has one level, but until levels are given to it no level can be used, level 0
included: whatever else is called, the one level has neither a field nor a way to load one. -/
theorem C76_new_level_unusable (root : ℚ → ℚ) (cs : List Call)
    (h : ∀ c ∈ cs, (∀ fs, c ≠ .setup fs) ∧ (∀ fs, c ≠ .setupLazyLoad fs)) (s : State)
    (hs : State.run root State.new cs = some s) :
    s.slots.length = 1 ∧ ∀ i, s.step root (.level i) = none := by
  have hmap : ∀ t t' : State, t.slots = [.absent] → t.mappingChanged root = some t' → t'.slots = [.absent] := by
    intro t t' ht h
    unfold State.mappingChanged at h
    rw [ht] at h
    simp only [placeSlots, Option.map_some, Option.some.injEq] at h
    rw [← h]
  have hlev : ∀ t : State, t.slots = [.absent] → ∀ i, t.step root (.level i) = none := by
    intro t ht i
    simp only [State.step, State.level, ht]
    cases i <;> rfl
  have key : ∀ (cs : List Call) (t : State), (∀ c ∈ cs, (∀ fs, c ≠ .setup fs) ∧ (∀ fs, c ≠ .setupLazyLoad fs)) →
      t.slots = [.absent] → State.run root t cs = some s → s.slots = [.absent] := by
    intro cs
    induction cs with
    | nil => intro t _ ht hr; cases hr; exact ht
    | cons c cs ih =>
      intro t hc ht hr
      simp only [State.run] at hr
      obtain ⟨r, hr1, hr2⟩ := Option.bind_eq_some_iff.mp hr
      refine ih r.2 (fun c' h' => hc c' (List.mem_cons_of_mem _ h')) ?_ hr2
      have h0 := hc c (List.mem_cons_self ..)
      cases c with
      | setMIPOffset v => simp only [State.step, Option.some.injEq] at hr1; rw [← hr1]; exact ht
      | metadata op => simp only [State.step, Option.some.injEq] at hr1; rw [← hr1]; exact ht
      | setup fs => exact absurd rfl (h0.1 fs)
      | setupLazyLoad fs => exact absurd rfl (h0.2 fs)
      | level i => rw [hlev t ht i] at hr1; cases hr1
      | setMapping m =>
        simp only [State.step] at hr1
        obtain ⟨u, hu, rfl⟩ := Option.map_eq_some_iff.mp hr1
        cases m with
        | none => exact hmap t u ht hu
        | some m =>
          simp only [State.setMapping] at hu
          obtain ⟨m', _, hm'⟩ := Option.bind_eq_some_iff.mp hu
          exact hmap { t with map := m' } u ht hm'
  have := key cs State.new h rfl hs
  exact ⟨by rw [this]; rfl, hlev s this⟩

example (root : ℚ → ℚ) : (State.run root State.new [.setMIPOffset ⟨1, 2, 3⟩]).isSome = true := rfl

/-! ## Faults: levels and offset that disagree -/

theorem coord_inj (a b : ℤ) (i : ℕ) (p : ℚ) : mipCoord1 a i p = mipCoord1 b i p ↔ a % 2 ^ i = b % 2 ^ i := by
  have h2 : (1 / 2 ^ i : ℚ) ≠ 0 := by positivity
  unfold mipCoord1
  simp only
  rw [mul_left_inj' h2, sub_right_inj, Int.cast_inj]
  have h1 := Int.emod_add_mul_ediv a (2 ^ i)
  have h3 := Int.emod_add_mul_ediv b (2 ^ i)
  rw [mul_comm] at h1 h3
  generalize a / 2 ^ i * 2 ^ i = x at *
  generalize b / 2 ^ i * 2 ^ i = y at *
  omega

/-- **C76, a fault.** An offset that is given after the levels were set up is reported at once, and sampling uses it, but the
levels in memory stay where they were: they lie where the old offset says. The two differ unless the offsets are equal modulo
the size of the voxels of the level. -/
theorem C76_stale (root : ℚ → ℚ) (hr : Lengths root) (pre : List Call) (c : Call) (cs : List Call)
    (hc : ∀ c ∈ cs, calm c) (f : Frame) (ops : List Op) (hg : givenMap c = some (.matrix (Matrix.run f ops)))
    (hne : history ops ≠ []) (ha : ∀ s ∈ history ops, Affine s.2) (hs : SteadyEdges (history ops)) (s : State)
    (h : State.new.run root (pre ++ c :: cs) = some s) (v : V3i) (he0 : Proper s.extents) (hm0 : s.extents.min = V3i.all 0)
    (i : ℕ) (e : Box3i) (m' : Map) (info : Meta) (hi : s.slots[i]? = some (.loaded e m' info)) (he : Proper e)
    (hm : e.min = V3i.all 0) (t : ℚ) (ht : (transformAt (history ops) t).det ≠ 0) (w : V3q) :
    ∃ s', State.new.run root (pre ++ c :: cs ++ [.setMIPOffset v]) = some s' ∧ s'.off.offset = v ∧
      s'.slots[i]? = some (.loaded e m' info) ∧ s'.map = s.map ∧
      ∃ m n p, s'.map = .matrix m ∧ m' = .matrix n ∧ m.worldToVoxelAt w t = some p ∧
        n.worldToVoxelAt w t = some (mipCoord s.off.offset i p) ∧
        (n.worldToVoxelAt w t = some (mipCoord v i p) ↔ v.x % 2 ^ i = s.off.offset.x % 2 ^ i ∧
          v.y % 2 ^ i = s.off.offset.y % 2 ^ i ∧ v.z % 2 ^ i = s.off.offset.z % 2 ^ i) := by
  obtain ⟨m, n, p, h1, h2, h3, h4⟩ := C76_levels_agree root hr pre c cs hc f ops hg hne ha hs s h he0 hm0 i e m' info hi he hm
    t ht w
  refine ⟨{ s with off := s.off.setMIPOffset v }, ?_, rfl, hi, rfl, m, n, p, h1, h2, h3, h4, ?_⟩
  · rw [mip_run_append, h]
    rfl
  · rw [h4, Option.some.injEq, mipCoord, mipCoord, V3q.mk.injEq, coord_inj, coord_inj, coord_inj]
    constructor <;> rintro ⟨a, b, c⟩ <;> exact ⟨a.symm, b.symm, c.symm⟩

/-- A field whose metadata is edited, and then a level used. -/
def edited (s : State) (v : V3i) (i : ℕ) (e : Box3i) (m : Map) : State :=
  ⟨⟨s.off.offset, s.off.info.setVecInt kMipOffset v⟩, s.extents, s.dw, s.map,
    s.slots.set i (.loaded e m (s.off.info.setVecInt kMipOffset v))⟩

theorem edited_level (root : ℚ → ℚ) (s : State) (v : V3i) (i : ℕ) (e : Box3i) (m : Map) (hx : s.slots[i]? = some (.waiting e))
    (hm : loadedMapping root s.map v e i = some m) :
    s.run root [.metadata (.vecInt kMipOffset v), .level i] = some (edited s v i e m) ∧
      (edited s v i e m).slots[i]? = some (.loaded e m (s.off.info.setVecInt kMipOffset v)) := by
  have hst : (⟨s.off.offset, s.off.info.setVecInt kMipOffset v⟩ : Off).stored = v := by
    simp [Off.stored, Metadata.Meta.getVecInt, Metadata.Meta.setVecInt, get_set]
  constructor
  · show (((State.level root ⟨⟨s.off.offset, s.off.info.setVecInt kMipOffset v⟩, s.extents, s.dw, s.map, s.slots⟩ i).map
      fun s => (true, s)).bind fun r => some r.2) = _
    unfold State.level
    simp only [hx, hst, hm]
    rfl
  · unfold edited
    simp only
    rw [List.getElem?_set_self (List.getElem?_eq_some_iff.1 hx).1]

theorem lazy_run (root : ℚ → ℚ) (old : V3i) (gs : List Given) (cs : List Call) :
    State.new.run root (.setMIPOffset old :: .setupLazyLoad gs :: cs) =
      (State.setup root { State.new with off := Off.new.setMIPOffset old } (fun f => .waiting f.extents) gs).bind fun r =>
        State.run root r.2 cs := rfl

/-- **C76, a fault.** Setting the entry in the metadata by hand, or copying metadata, does not change the offset that the field
reports and samples with; but a level that is loaded later is placed by the metadata. -/
theorem C76_metadata_edit (root : ℚ → ℚ) (hr : Lengths root) (f : Frame) (ops : List Op) (g : Given) (gs : List Given)
    (hg : GoodLevels f ops g gs) (old v : V3i) (hm : ∀ x ∈ g :: gs, x.extents.min = V3i.all 0) (i : ℕ)
    (hi : i < (g :: gs).length) (t : ℚ) (ht : (transformAt (history ops) t).det ≠ 0) (w : V3q) :
    ∃ s, State.new.run root [.setMIPOffset old, .setupLazyLoad (g :: gs), .metadata (.vecInt kMipOffset v), .level i] = some s ∧
      s.off.offset = old ∧ ∃ m n p info, s.map = .matrix m ∧
        s.slots[i]? = some (.loaded (g :: gs)[i].extents (.matrix n) info) ∧ m.worldToVoxelAt w t = some p ∧
        n.worldToVoxelAt w t = some (mipCoord v i p) := by
  obtain ⟨s, h1, h2, hx, hmap⟩ := set_up_lazily hr hg i hi { State.new with off := Off.new.setMIPOffset old }
  have hh : history (ops ++ [.setExtents g.extents]) = history ops := by rw [history_snoc]
  obtain ⟨n, k1, p, k2, k3, -⟩ := C73_cells root hr f (ops ++ [.setExtents g.extents]) g.extents (hg.proper g (by simp))
    (frame_extents _ _ _) (hh ▸ hg.some) (hh ▸ hg.affine) (hh ▸ hg.steady) v i (g :: gs)[i].extents
    (hg.proper _ (List.getElem_mem hi)) (hm g (by simp)) (hm _ (List.getElem_mem hi)) t (by rw [hh]; exact ht) w
  obtain ⟨j1, j2⟩ := edited_level root s v i _ _ hx (by rw [hmap]; exact k1)
  refine ⟨edited s v i (g :: gs)[i].extents (.matrix n), ?_, ?_, _, n, p, _, hmap, j2, k2, k3⟩
  · rw [lazy_run, h1, Option.bind_some]
    exact j1
  · show s.off.offset = old
    rw [h2]
    exact stored_set Off.new old

/-! ## A concrete field -/

/-- The levels of a field of five voxels along each axis. -/
def turningLevels : List Given :=
  [⟨⟨⟨0, 0, 0⟩, ⟨4, 4, 4⟩⟩, ⟨⟨0, 0, 0⟩, ⟨4, 4, 4⟩⟩, .matrix (Matrix.run Frame.default turningOps), Metadata.Meta.empty⟩,
   ⟨⟨⟨0, 0, 0⟩, ⟨2, 2, 2⟩⟩, ⟨⟨0, 0, 0⟩, ⟨2, 2, 2⟩⟩, .null, Metadata.Meta.empty⟩]

theorem turning_good : ∃ g gs, turningLevels = g :: gs ∧ GoodLevels Frame.default turningOps g gs :=
  ⟨_, _, rfl, rfl, by decide +kernel, turning_affine, turning_steady, by
    intro x hx
    simp only [List.mem_cons, List.not_mem_nil, or_false] at hx
    rcases hx with rfl | rfl <;> (unfold Proper; decide),
    show Shrinks _ [_] from ⟨by decide, by decide, trivial⟩⟩

/-- A MIP field with metadata is made with offset (-3, 1, 2); level 1 lies where sampling looks for it. With the offset (-2, 1, 2)
given afterwards it does not. -/
example : ∃ root, Lengths root ∧ ∃ s e m' info, State.new.run root (makeMIPCalls sampleMeta ⟨-3, 1, 2⟩ turningLevels) = some s ∧
    s.off.offset = ⟨-3, 1, 2⟩ ∧ s.slots[1]? = some (.loaded e m' info) ∧
    (∃ m n p, s.map = .matrix m ∧ m' = .matrix n ∧ m.worldToVoxelAt ⟨9, 1, 1⟩ 1 = some p ∧
      n.worldToVoxelAt ⟨9, 1, 1⟩ 1 = some (mipCoord ⟨-3, 1, 2⟩ 1 p) ∧
      n.worldToVoxelAt ⟨9, 1, 1⟩ 1 ≠ some (mipCoord ⟨-2, 1, 2⟩ 1 p)) := by
  obtain ⟨root, hr⟩ := lengths_exist
  obtain ⟨g, gs, hl, hg⟩ := turning_good
  obtain ⟨s, h1, h2, -, h3, -, h5, h6⟩ := C76_make root hr _ _ g gs hg sampleMeta ⟨-3, 1, 2⟩
  have hL : g = turningLevels[0] ∧ gs = [turningLevels[1]] := by
    have := hl.symm
    simp only [turningLevels, List.cons.injEq] at this
    exact ⟨this.1, this.2⟩
  have he : (s.slots.map slotExtents)[1]? = some (some ⟨⟨0, 0, 0⟩, ⟨2, 2, 2⟩⟩) := by rw [h5, hL.2]; rfl
  have hf : (s.slots.map slotInfo)[1]? = some (some Metadata.Meta.empty) := by rw [h6, hL.2]; rfl
  rw [List.getElem?_map, Option.map_eq_some_iff] at he hf
  obtain ⟨x, hx, he⟩ := he
  obtain ⟨y, hy, hf⟩ := hf
  rw [hx] at hy
  cases hy
  cases x with
  | loaded e m' info =>
    simp only [slotExtents, Option.some.injEq] at he
    subst he
    have hex : s.extents = ⟨⟨0, 0, 0⟩, ⟨4, 4, 4⟩⟩ := by rw [h3, hL.1]; rfl
    obtain ⟨s', -, -, -, hmm, m, n, p, k1, k2, k3, k4, k5⟩ := C76_stale root hr
      [.metadata (.assign sampleMeta), .setMIPOffset ⟨-3, 1, 2⟩] (.setup (g :: gs)) [] (by simp) Frame.default turningOps
      (by rw [hL.1]; rfl) (by decide +kernel) turning_affine turning_steady s h1 ⟨-2, 1, 2⟩
      (by rw [hex]; unfold Proper; decide) (by rw [hex]; rfl) 1 _ m' info hx (by unfold Proper; decide) rfl 1
      (by decide +kernel) ⟨9, 1, 1⟩
    rw [h2] at k4 k5
    refine ⟨root, hr, s, _, m', info, by rw [hl]; exact h1, h2, hx, m, n, p, hmm ▸ k1, k2, k3, k4, fun h => ?_⟩
    have := (k5.1 h).1
    revert this
    decide
  | absent => simp [slotExtents] at he
  | waiting e => simp [slotInfo] at hf

/-- The same levels, loaded on demand: level 1 is placed by the offset in the metadata, whatever the field reports. -/
example : ∃ root, Lengths root ∧ ∃ s, State.new.run root [.setMIPOffset ⟨-3, 1, 2⟩, .setupLazyLoad turningLevels,
    .metadata (.vecInt kMipOffset ⟨5, 0, 0⟩), .level 1] = some s ∧ s.off.offset = ⟨-3, 1, 2⟩ := by
  obtain ⟨root, hr⟩ := lengths_exist
  obtain ⟨g, gs, hl, hg⟩ := turning_good
  have hlen : (g :: gs).length = 2 := by rw [← hl]; rfl
  have hmin : ∀ x ∈ g :: gs, x.extents.min = V3i.all 0 := by
    rw [← hl]
    intro x hx
    simp only [turningLevels, List.mem_cons, List.not_mem_nil, or_false] at hx
    rcases hx with rfl | rfl <;> rfl
  obtain ⟨s, h1, h2, -⟩ := C76_metadata_edit root hr _ _ g gs hg ⟨-3, 1, 2⟩ ⟨5, 0, 0⟩ hmin 1 (by omega) 1 (by decide +kernel)
    ⟨9, 1, 1⟩
  exact ⟨root, hr, s, by rw [hl]; exact h1, h2⟩

example (root : ℚ → ℚ) (s : State) : s.step root (.setup turningLevels.reverse) = some (false, { s with slots := [] }) :=
  (C76_refused root s _ (by
    intro g gs h
    simp only [turningLevels, List.reverse_cons, List.reverse_nil, List.nil_append, List.cons_append, List.cons.injEq] at h
    obtain ⟨rfl, rfl⟩ := h
    rintro ⟨⟨h, -⟩, -⟩
    revert h
    decide)).1

end F3D.Props

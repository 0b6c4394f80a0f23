import Verif.Proofs.FieldIO
import Verif.Props.Dense
import Verif.Props.Sparse

/-!
# Fields in files: C37, C38, C42

`groupKids g es` are the children, in the file, of a group with the entries `es` (C36 shows that they survive the
file). The group of a layer holds the entries of the field among others (`pre`, `post`): the class name, the layer type
and the metadata. `Foreign pre`: none of the entries before has a name the format uses. `Lawful e`: the bytes of a voxel
in memory have the size of its type and determine it. `V32`: the coordinates fit an `int`.
-/

namespace F3D.Props
open F3D.Ogawa F3D.Og F3D.BlockThreads F3D.FieldIO

/-! ## Dense fields -/

theorem dense_run_wf {α : Type} (dflt : α) : ∀ (ops : List (DenseOp α)) (f g : Dense α), f.WF →
    denseRun dflt f ops = some g → g.WF
  | [], f, g, hf, h => by
    simp only [denseRun, Option.some.injEq] at h; exact h ▸ hf
  | op :: ops, f, g, hf, h => by
    simp only [denseRun] at h
    cases hs : denseStep dflt f op with
    | none => rw [hs] at h; simp at h
    | some f' =>
      rw [hs, Option.bind_some] at h
      refine dense_run_wf dflt ops f' g ?_ h
      cases op with
      | write q v =>
        simp only [denseStep, Dense.write] at hs
        split at hs
        · simp only [Option.some.injEq] at hs
          exact hs ▸ Dense.wf_write hf _ _
        · simp at hs
      | clear v =>
        simp only [denseStep, Option.some.injEq] at hs
        exact hs ▸ Dense.wf_clear hf v
      | resize e w =>
        by_cases hw : w.isEmpty = true
        · have hb : w.max.x < w.min.x ∨ w.max.y < w.min.y ∨ w.max.z < w.min.z := by
            simpa [Box3i.isEmpty, or_assoc] using hw
          simp [denseStep, Dense.setSize, hb] at hs
        · obtain ⟨k, hk, kwf, _⟩ := Dense.setSize_ok (dflt := dflt) (e := e) (Bool.eq_false_iff.mpr hw)
          simp only [denseStep, hk, Option.some.injEq] at hs
          exact hs ▸ kwf

/-- **Dense round trip.** Any dense field a program can build (a successful `setSize` and then any writes, clears and
resizes that do not fail) is read back from its layer exactly: extents, data window and every voxel. -/
theorem C37_dense_round_trip {α : Type} (e : Elem α) (L : Lawful e) (hv : isVoxelType e.type = true) (dflt : α)
    (g : Name) (pre post : List Entry) (hp : Foreign pre) (hq : ∀ x ∈ post, plainName (nameOf x))
    (ext dw : Box3i) (f0 : Dense α) (h0 : Dense.setSize dflt ext dw = .ok f0) (ops : List (DenseOp α)) (f : Dense α)
    (hf : denseRun dflt f0 ops = some f)
    (hx : V32 f.extents.min ∧ V32 f.extents.max) (hd : V32 f.dw.min ∧ V32 f.dw.max) :
    readDense e dflt (groupKids g (pre ++ denseEntries e f ++ post)) = .ok f := by
  have hw : f0.WF := by
    by_cases hw : dw.isEmpty = true
    · have hb : dw.max.x < dw.min.x ∨ dw.max.y < dw.min.y ∨ dw.max.z < dw.min.z := by
        simpa [Box3i.isEmpty, or_assoc] using hw
      simp [Dense.setSize, hb] at h0
    · obtain ⟨k, hk, kwf, _⟩ := Dense.setSize_ok (dflt := dflt) (e := ext) (Bool.eq_false_iff.mpr hw)
      rw [h0] at hk; cases hk; exact kwf
  exact readDense_ok e L hv dflt g pre post hp hq f (dense_run_wf dflt ops f0 f hw hf) hx hd

/-- Plain entries of a layer: no name that would hide others. -/
theorem dense_names {α : Type} (e : Elem α) (f : Dense α) : ∀ x ∈ denseEntries e f, nameOf x ∈ formatNames := by
  intro x h
  simp only [denseEntries, windowEntries, List.mem_append, List.mem_cons, List.not_mem_nil, or_false] at h
  rcases h with (rfl | rfl | rfl | rfl | rfl) | rfl | rfl | rfl <;> simp only [nameOf] <;> decide

theorem layer_names {es pre post : List Entry} (hp : Foreign pre) (hes : ∀ x ∈ es, nameOf x ∈ formatNames)
    (hq : ∀ x ∈ post, plainName (nameOf x)) : ∀ x ∈ pre ++ es ++ post, plainName (nameOf x) := by
  intro x hx
  rw [List.mem_append, List.mem_append] at hx
  rcases hx with (h | h) | h
  · exact (hp x h).1
  · exact (formatNames_ok _ (hes x h)).2
  · exact hq x h

/-- Asked for another voxel type, a dense layer gives a null pointer, for every field and content. -/
theorem C37_other_type_is_null {α β : Type} (e : Elem α) (L : Lawful e) (hv : isVoxelType e.type = true) (e' : Elem β)
    (ht : e'.type ≠ e.type) (dflt : β) (g : Name) (pre post : List Entry) (hp : Foreign pre)
    (hq : ∀ x ∈ post, plainName (nameOf x)) (f : Dense α) (hf : f.WF)
    (hx : V32 f.extents.min ∧ V32 f.extents.max) (hd : V32 f.dw.min ∧ V32 f.dw.max) :
    readDense e' dflt (groupKids g (pre ++ denseEntries e f ++ post)) = .null := by
  have hn := layer_names hp (dense_names e f) hq
  have ff : ∀ k nm, nm ∈ formatNames →
      firstOf k nm (pre ++ denseEntries e f ++ post) = firstOf k nm (denseEntries e f ++ post) := by
    intro k nm hm
    rw [List.append_assoc, foreign_first hp k nm hm]
  have s := fun nm hm => (formatNames_ok nm hm).1
  have hw := readWindows_ok g _ f.extents f.dw hn hx hd (by rw [ff _ _ (by decide)]; rfl)
    (by rw [ff _ _ (by decide)]; rfl) (by rw [ff _ _ (by decide)]; rfl) (by rw [ff _ _ (by decide)]; rfl)
    (by rw [ff _ _ (by decide)]; rfl)
  have hc := attr_get g kComponents .int32 (encInt (dims e.type)) _ (s _ (by decide)) hn
    (by rw [ff _ _ (by decide)]; rfl) (by decide) rfl
  have hlen := dense_length f hf
  have hpos := dense_nonempty f hf
  have hb : 0 < e.type.bytes := by revert hv; cases e.type <;> simp [isVoxelType, DataType.bytes]
  obtain ⟨-, h4⟩ := dataset_get false g kData e.type
    [e.encAll (f.data.take (f.memXY * f.dw.res.z).toNat)] _ (s _ (by decide)) hn
    (by
      intro x hx
      rw [List.mem_singleton] at hx
      intro h0
      rw [h0, hlen, List.take_length] at hx
      have h5 := congrArg List.length hx
      rw [encAll_length L] at h5
      have := Nat.mul_pos hpos hb
      simp at h5; omega)
    (by rw [ff _ _ (by decide)]; rfl)
  simp only [Bool.false_eq_true, if_false] at h4
  rw [readDense, hw, bind_ok, hc, bind_ok, h4]
  simp only
  rw [if_neg]
  rintro ⟨h, -⟩
  rw [Option.some.injEq, type_inj] at h
  exact ht h.symm

/-- **Disagreement**: a dense field that was never given a size (or whose data window is empty) can be written, but the
layer cannot be read: the reader throws. -/
theorem C37_unsized_field_unreadable {α : Type} (e : Elem α) (hv : isVoxelType e.type = true) (dflt : α) (g : Name)
    (pre post : List Entry) (hp : Foreign pre) (hq : ∀ x ∈ post, plainName (nameOf x)) (f : Dense α)
    (hf : f.dw.isEmpty = true) (hx : V32 f.extents.min ∧ V32 f.extents.max) (hd : V32 f.dw.min ∧ V32 f.dw.max) :
    readDense e dflt (groupKids g (pre ++ denseEntries e f ++ post)) = .exception := by
  have hn := layer_names hp (dense_names e f) hq
  have ff : ∀ k nm, nm ∈ formatNames →
      firstOf k nm (pre ++ denseEntries e f ++ post) = firstOf k nm (denseEntries e f ++ post) := by
    intro k nm hm
    rw [List.append_assoc, foreign_first hp k nm hm]
  have s := fun nm hm => (formatNames_ok nm hm).1
  have hw := readWindows_ok g _ f.extents f.dw hn hx hd (by rw [ff _ _ (by decide)]; rfl)
    (by rw [ff _ _ (by decide)]; rfl) (by rw [ff _ _ (by decide)]; rfl) (by rw [ff _ _ (by decide)]; rfl)
    (by rw [ff _ _ (by decide)]; rfl)
  have hc := attr_get g kComponents .int32 (encInt (dims e.type)) _ (s _ (by decide)) hn
    (by rw [ff _ _ (by decide)]; rfl) (by decide) rfl
  have h4 : typeOf .dataset kData (groupKids g (pre ++ denseEntries e f ++ post)) = some (some (le32 e.type.code)) := by
    have hf' : firstOf .dataset kData (pre ++ denseEntries e f ++ post) =
        some (.dataset kData e.type [e.encAll (f.data.take (f.memXY * f.dw.res.z).toNat)]) := by
      rw [ff _ _ (by decide)]; rfl
    obtain ⟨ks, hk⟩ := kidsOf_encode (.dataset kData e.type [e.encAll (f.data.take (f.memXY * f.dw.res.z).toNat)])
    have hfind := ((C35_first_of_kind .dataset kData g _ (s _ (by decide)) hn).1 ks).2 ⟨_, hf', hk⟩
    obtain ⟨c, hks⟩ := dataset_kids kData e.type _ false ks (by decide) hk
    rw [typeOf, hfind, hks]
    simp [readDataType, readData, getData, le32]
  have hb : f.dw.max.x < f.dw.min.x ∨ f.dw.max.y < f.dw.min.y ∨ f.dw.max.z < f.dw.min.z := by
    simpa [Box3i.isEmpty, or_assoc] using hf
  rw [readDense, hw, bind_ok, hc, bind_ok, h4]
  simp only [hv, and_self, if_true, readDenseData, Dense.setSize, hb]

/-! ## Sparse fields -/

theorem allocatedBlocks_length (alloc : List Bool) : (allocatedBlocks alloc).length = (alloc.filter id).length := by
  have : ∀ i, i ≤ alloc.length → (written alloc i).length = datasetIdx alloc i := by
    intro i hi
    unfold datasetIdx
    induction i with
    | zero => simp [written]
    | succ i ih =>
      have hlt : i < alloc.length := hi
      rw [written_succ, List.take_add_one, List.filter_append, List.length_append, List.length_append, ih (by omega),
        List.getElem?_eq_getElem hlt]
      rcases Bool.eq_false_or_eq_true alloc[i] with h | h <;> simp [h]
  rw [← written_eq, this _ (Nat.le_refl _), datasetIdx, List.take_length]

/-- The sizes for which the format has room: coordinates of 32 bits, a block order below 11 (a block of more voxels than
an `int` counts otherwise) and fewer than `2^31` blocks. -/
structure Storable {α : Type} (f : Sparse α) : Prop where
  ext : V32 f.extents.min ∧ V32 f.extents.max
  dw : V32 f.dw.min ∧ V32 f.dw.max
  order : f.order ≤ 10
  blocks : f.blocks.length < 2 ^ 31

theorem sparseEntries_some {α : Type} (e : Elem α) (z : Zlib) (f : Sparse α) (hf : f.WF) (log : List Nat)
    (h : ∀ i ∈ log, (flags f).getD i false = true) : ∃ es, sparseEntries e z f log = some es := by
  have key : ∀ i ∈ log, ∃ bs, blockBytes e z f i = some bs := by
    intro i hi
    have h1 := h i hi
    rw [flags, List.getD_eq_getElem?_getD, List.getElem?_map] at h1
    unfold blockBytes
    cases hb : f.blocks[i]? with
    | none => rw [hb] at h1; simp at h1
    | some b =>
      rw [hb] at h1
      simp at h1
      have w := hf.blk b (List.mem_of_getElem? hb)
      unfold Sparse.BWF at w
      rw [if_pos h1] at w
      obtain ⟨d, hd, hl⟩ := w
      simp [hd, hl, ← nv_eq]
  have : ∃ els, log.mapM (blockBytes e z f) = some els := by
    clear h
    induction log with
    | nil => exact ⟨[], rfl⟩
    | cons x xs ih =>
      obtain ⟨b, hb⟩ := key x (by simp)
      obtain ⟨bs, hbs⟩ := ih (fun i hi => key i (by simp [hi]))
      exact ⟨b :: bs, by rw [List.mapM_cons, hb, hbs]; rfl⟩
  obtain ⟨els, he⟩ := this
  exact ⟨_, by unfold sparseEntries; rw [he]⟩

theorem any_finished (s : WState) : s.th.all (· = .done) = true ↔ s.finished := by
  rw [List.all_eq_true]
  constructor <;> intro h pc hpc <;> simpa using h pc hpc

/-- Writing a field never touches memory it should not, whatever the schedule: it returns or is still running. (The
out-of-range read of a flag in C40 aside.) -/
theorem C38_write_never_crashes {α : Type} (e : Elem α) (z : Zlib) (f : Sparse α) (hf : f.WF) (threads : Nat)
    (hT : 0 < threads) (sched : List Nat) (oob : Bool) :
    writeSparse e z threads sched oob f = .running ∨ ∃ es, writeSparse e z threads sched oob f = .ok es := by
  unfold writeSparse
  simp only
  split
  · split
    · obtain ⟨es, h⟩ := sparseEntries_some e z f hf ((WState.init threads (flags f)).run (flags f) oob sched).log (by
        intro i hi
        have := (C40_each_block_at_most_once threads hT (flags f) oob sched).1 i
        have h2 := List.count_pos_iff.mpr hi
        split at this
        · assumption
        · omega)
      rw [h]; exact Or.inr ⟨es, rfl⟩
    · exact Or.inl rfl
  · obtain ⟨es, h⟩ := sparseEntries_some e z f hf [] (by simp)
    rw [h]; exact Or.inr ⟨es, rfl⟩

section
variable {α : Type} [DecidableEq α] (e : Elem α) (L : Lawful e) (hv : isVoxelType e.type = true) (z : Zlib)
  (hz : ZlibOk z) (zero dflt : α) (g : Name) (pre post : List Entry) (hp : Foreign pre)
  (hq : ∀ x ∈ post, plainName (nameOf x)) (f : Sparse α) (hf : SparseReachable zero f) (hs : Storable f)
include L hv hz hp hq hf hs

theorem read_of_log (log : List Nat) (es : List Entry) (hes : sparseEntries e z f log = some es)
    (hl : log = allocatedBlocks (flags f)) (rthreads : Nat) (hT : 0 < rthreads) (rsched : List Nat) :
    (readSparse e z zero dflt rthreads rsched (groupKids g (pre ++ es ++ post)) = .running ∨
      readSparse e z zero dflt rthreads rsched (groupKids g (pre ++ es ++ post)) = .ok f) ∧
    ∃ rest, readSparse e z zero dflt rthreads (rsched ++ rest) (groupKids g (pre ++ es ++ post)) = .ok f := by
  obtain ⟨m, hr⟩ := reachable_refines hf
  have h := readSparse_ok e L hv z hz zero dflt g pre post hp hq f hr.wf hr.fits hs.ext hs.dw
    (by have := hs.order; omega) hs.blocks log es hes (by rw [hl, allocatedBlocks_length]) rthreads hT rsched
  rw [hl, reread_allocated] at h
  exact h

/-- **Sparse round trip**, when the writing threads do not interleave in the update of the write counter (`Exclusive`;
this includes one thread): any field a program can reach, with any mix of allocated and unallocated blocks, is read
back exactly — windows, block order, allocation, empty values and voxels — by any number of reading threads, under any
schedule that lets them finish; and they can always finish. -/
theorem C38_sparse_round_trip (wthreads : Nat) (hW : 0 < wthreads) (wsched : List Nat) (oob : Bool)
    (hex : Exclusive (flags f) oob (WState.init wthreads (flags f)) wsched) (es : List Entry)
    (hw : writeSparse e z wthreads wsched oob f = .ok es) (rthreads : Nat) (hT : 0 < rthreads) (rsched : List Nat) :
    (readSparse e z zero dflt rthreads rsched (groupKids g (pre ++ es ++ post)) = .running ∨
      readSparse e z zero dflt rthreads rsched (groupKids g (pre ++ es ++ post)) = .ok f) ∧
    ∃ rest, readSparse e z zero dflt rthreads (rsched ++ rest) (groupKids g (pre ++ es ++ post)) = .ok f := by
  have hlog : ∃ log, sparseEntries e z f log = some es ∧ log = allocatedBlocks (flags f) := by
    unfold writeSparse at hw
    simp only at hw
    split at hw
    · split at hw
      · rename_i hfin
        split at hw
        · simp at hw
        · rename_i es' h
          simp only [Res.ok.injEq] at hw
          subst hw
          exact ⟨_, h, (C40_atomic_update wthreads hW (flags f) oob wsched hex).2 ((any_finished _).mp hfin)⟩
      · simp at hw
    · rename_i hany
      split at hw
      · simp at hw
      · rename_i es' h
        simp only [Res.ok.injEq] at hw
        subst hw
        refine ⟨[], h, ?_⟩
        symm
        rw [← List.length_eq_zero_iff, allocatedBlocks_length, List.length_eq_zero_iff, List.filter_eq_nil_iff]
        intro b hb hb'
        exact hany (List.any_eq_true.mpr ⟨b, hb, hb'⟩)
  obtain ⟨log, h1, h2⟩ := hlog
  exact read_of_log e L hv z hz zero dflt g pre post hp hq f hf hs log es h1 h2 rthreads hT rsched

/-- The same for the code as it is, under every schedule of the writers, if all blocks are allocated. -/
theorem C38_fully_allocated_round_trip (hall : ∀ b ∈ f.blocks, b.isAllocated = true) (wthreads : Nat)
    (hW : 0 < wthreads) (wsched : List Nat) (oob : Bool) (es : List Entry)
    (hw : writeSparse e z wthreads wsched oob f = .ok es) (rthreads : Nat) (hT : 0 < rthreads) (rsched : List Nat) :
    (readSparse e z zero dflt rthreads rsched (groupKids g (pre ++ es ++ post)) = .running ∨
      readSparse e z zero dflt rthreads rsched (groupKids g (pre ++ es ++ post)) = .ok f) ∧
    ∃ rest, readSparse e z zero dflt rthreads (rsched ++ rest) (groupKids g (pre ++ es ++ post)) = .ok f := by
  have hflag : ∀ b ∈ flags f, b = true := by
    intro b hb
    rw [flags, List.mem_map] at hb
    obtain ⟨b', h, rfl⟩ := hb
    exact hall b' h
  have hal : allocatedBlocks (flags f) = List.range (flags f).length := by
    unfold allocatedBlocks
    rw [List.filter_eq_self]
    intro i hi
    rw [List.mem_range] at hi
    rw [List.getD_eq_getElem?_getD, List.getElem?_eq_getElem hi]
    exact hflag _ (List.getElem_mem hi)
  have hlog : ∃ log, sparseEntries e z f log = some es ∧ log = allocatedBlocks (flags f) := by
    unfold writeSparse at hw
    simp only at hw
    split at hw
    · split at hw
      · rename_i hfin
        split at hw
        · simp at hw
        · rename_i es' h
          simp only [Res.ok.injEq] at hw
          subst hw
          refine ⟨_, h, ?_⟩
          rw [hal]
          exact (C40_all_allocated wthreads hW (flags f) hflag oob wsched).2.1 ((any_finished _).mp hfin)
      · simp at hw
    · rename_i hany
      split at hw
      · simp at hw
      · rename_i es' h
        simp only [Res.ok.injEq] at hw
        subst hw
        refine ⟨[], h, ?_⟩
        symm
        rw [← List.length_eq_zero_iff, allocatedBlocks_length, List.length_eq_zero_iff, List.filter_eq_nil_iff]
        intro b hb hb'
        exact hany (List.any_eq_true.mpr ⟨b, hb, hb'⟩)
  obtain ⟨log, h1, h2⟩ := hlog
  exact read_of_log e L hv z hz zero dflt g pre post hp hq f hf hs log es h1 h2 rthreads hT rsched

/-- The code as it is, any schedule: whatever the order `log` in which the writers added the blocks, reading gives each
allocated block the data of the block that was added at its place, and everything else as written. So the only thing
the write race can spoil, in a write that returns, is which block gets which data. -/
theorem C38_any_schedule (wthreads : Nat) (hW : 0 < wthreads) (wsched : List Nat) (oob : Bool) (es : List Entry)
    (hany : (flags f).any id = true) (hw : writeSparse e z wthreads wsched oob f = .ok es) (rthreads : Nat)
    (hT : 0 < rthreads) (rsched : List Nat) :
    let log := ((WState.init wthreads (flags f)).run (flags f) oob wsched).log
    (readSparse e z zero dflt rthreads rsched (groupKids g (pre ++ es ++ post)) = .running ∨
      readSparse e z zero dflt rthreads rsched (groupKids g (pre ++ es ++ post)) =
        .ok { f with blocks := reread f log }) ∧
    ∃ rest, readSparse e z zero dflt rthreads (rsched ++ rest) (groupKids g (pre ++ es ++ post)) =
      .ok { f with blocks := reread f log } := by
  intro log
  unfold writeSparse at hw
  simp only [hany, if_true] at hw
  split at hw
  · rename_i hfin
    split at hw
    · simp at hw
    · rename_i es' h
      simp only [Res.ok.injEq] at hw
      subst hw
      obtain ⟨m, hr⟩ := reachable_refines hf
      have hcount := (C40_each_block_at_most_once wthreads hW (flags f) oob wsched).2 ((any_finished _).mp hfin)
      have hperm : log.Perm (allocatedBlocks (flags f)) := by
        rw [List.perm_iff_count]
        intro i
        rw [hcount i]
        unfold allocatedBlocks
        by_cases hi : (flags f).getD i false = true
        · rw [if_pos hi, List.count_filter (by simpa using hi), List.nodup_range.count, if_pos]
          rw [List.mem_range]
          rw [List.getD_eq_getElem?_getD] at hi
          refine Classical.byContradiction fun h => ?_
          rw [List.getElem?_eq_none (by omega)] at hi
          simp at hi
        · rw [if_neg hi, List.count_eq_zero.mpr]
          rw [List.mem_filter]
          exact fun h => hi h.2
      exact readSparse_ok e L hv z hz zero dflt g pre post hp hq f hr.wf hr.fits hs.ext hs.dw
        (by have := hs.order; omega) hs.blocks log es' h (by rw [hperm.length_eq, allocatedBlocks_length]) rthreads hT
        rsched
  · simp at hw

end

/-! ## The hypotheses can be met, and the race spoils real fields -/

/-- Half precision values as bit patterns. -/
def half16 : Elem (UInt8 × UInt8) := ⟨.float16, fun a => [a.1, a.2], fun bs => (bs.headD 0, (bs.drop 1).headD 0)⟩

theorem half16_lawful : Lawful half16 := ⟨fun _ => rfl, fun _ => rfl⟩

/-- A compressor that stores. -/
def storeZlib : Zlib :=
  ⟨fun x => 1 :: x, fun n bs => if bs.length ≤ n + 1 then some (bs.drop 1) else none, fun n => n + 1⟩

theorem storeZlib_ok : ZlibOk storeZlib := ⟨by simp [storeZlib], by simp [storeZlib], by simp [storeZlib]⟩

/-- Five voxels in blocks of one voxel; the third is not written. -/
def rowOps : List (SparseOp (UInt8 × UInt8)) :=
  [.setBlockOrder 0, .write ⟨0, 0, 0⟩ (10, 0), .write ⟨1, 0, 0⟩ (11, 0), .write ⟨3, 0, 0⟩ (13, 0),
   .write ⟨4, 0, 0⟩ (14, 0)]
def rowBox : Box3i := ⟨⟨0, 0, 0⟩, ⟨4, 0, 0⟩⟩
def rowField : Sparse (UInt8 × UInt8) :=
  ⟨rowBox, rowBox, 0, ⟨5, 1, 1⟩, 5,
    [⟨true, (0, 0), some [(10, 0)]⟩, ⟨true, (0, 0), some [(11, 0)]⟩, ⟨false, (0, 0), none⟩,
     ⟨true, (0, 0), some [(13, 0)]⟩, ⟨true, (0, 0), some [(14, 0)]⟩]⟩

deriving instance DecidableEq for Sparse

theorem rowField_reachable : SparseReachable (0, 0) rowField := by
  refine ⟨rowBox, rowBox, rowOps, ?_, ?_, ?_⟩
  · exact ⟨by decide, by decide, by decide, by decide⟩
  · simp only [rowOps, SparseMap.allAllowed, SparseMap.allowed, SparseMap.apply, SparseMap.fresh]
    refine ⟨trivial, ?_, ?_, ?_, ?_, trivial⟩ <;> decide
  · decide +kernel

theorem rowField_storable : Storable rowField := by
  refine ⟨⟨?_, ?_⟩, ⟨?_, ?_⟩, ?_, ?_⟩ <;>
    first
    | (refine ⟨⟨?_, ?_⟩, ⟨?_, ?_⟩, ⟨?_, ?_⟩⟩ <;> decide)
    | decide

example : flags rowField = swapField := by decide

/-- The class and type attributes the file object writes before the field. -/
def samplePre : List Entry := [.attribute (ascii ['c', 'l', 'a', 's', 's', '_', 'n', 'a', 'm', 'e']) .string [83]]

theorem samplePre_foreign : Foreign samplePre := by
  simp only [Foreign, samplePre, List.mem_singleton, forall_eq]
  exact ⟨⟨by decide, by decide⟩, by decide⟩

/-- One writing thread, three reading threads. -/
example : ∃ es, writeSparse half16 storeZlib 1 (List.replicate 66 0) false rowField = .ok es ∧
    ∃ sched, readSparse half16 storeZlib (0, 0) (0, 0) 3 sched (groupKids [76] (samplePre ++ es ++ [])) = .ok rowField := by
  have hw := C38_write_never_crashes half16 storeZlib rowField
    (Exists.elim (reachable_refines rowField_reachable) fun _ h => h.wf) 1 (by omega) (List.replicate 66 0) false
  rcases hw with h | ⟨es, h⟩
  · exfalso
    unfold writeSparse at h
    have h1 : (flags rowField).any id = true := by decide
    have h2 := (any_finished _).mpr (C40_one_thread_ends (flags rowField) false 66 (by decide))
    simp only [h1, h2, if_true] at h
    revert h
    cases sparseEntries half16 storeZlib rowField _ <;> simp
  · refine ⟨es, h, ?_⟩
    have := (C38_sparse_round_trip half16 half16_lawful rfl storeZlib storeZlib_ok (0, 0) (0, 0) [76] samplePre []
      samplePre_foreign (by simp) rowField rowField_reachable rowField_storable 1 (by omega) _ false
      (exclusive_single _ _ _ _ (by simp [WState.init]) (by intro t ht; exact List.eq_of_mem_replicate ht)) es h 3
      (by omega) []).2
    obtain ⟨rest, hr⟩ := this
    exact ⟨rest, hr⟩

/-- **Disagreement**: with two writing threads there is a field and a schedule for which `write` returns normally and
every later read that returns gives a field with two voxels exchanged. -/
theorem C38_race_exchanges_voxels (oob : Bool) :
    ∃ es, writeSparse half16 storeZlib 2 swapSchedule oob rowField = .ok es ∧
    ∀ rthreads, 0 < rthreads → ∀ rsched,
      readSparse half16 storeZlib (0, 0) (0, 0) rthreads rsched (groupKids [76] es) = .running ∨
      ∃ f, readSparse half16 storeZlib (0, 0) (0, 0) rthreads rsched (groupKids [76] es) = .ok f ∧
        rowField.value ⟨3, 0, 0⟩ = some (13, 0) ∧ f.value ⟨3, 0, 0⟩ = some (14, 0) ∧
        rowField.value ⟨4, 0, 0⟩ = some (14, 0) ∧ f.value ⟨4, 0, 0⟩ = some (13, 0) := by
  have hfl : flags rowField = swapField := by decide
  obtain ⟨hfin, hlog, -⟩ := C40_race_swaps_blocks oob
  have hw := C38_write_never_crashes half16 storeZlib rowField
    (Exists.elim (reachable_refines rowField_reachable) fun _ h => h.wf) 2 (by omega) swapSchedule oob
  rcases hw with h | ⟨es, h⟩
  · exfalso
    unfold writeSparse at h
    have h1 : (flags rowField).any id = true := by decide
    have h2 := (any_finished _).mpr hfin
    rw [← hfl] at h2
    simp only [h1, h2, if_true] at h
    revert h
    cases sparseEntries half16 storeZlib rowField _ <;> simp
  · refine ⟨es, h, ?_⟩
    intro rthreads hT rsched
    have := (C38_any_schedule half16 half16_lawful rfl storeZlib storeZlib_ok (0, 0) (0, 0) [76] [] []
      (by simp [Foreign]) (by simp) rowField rowField_reachable rowField_storable 2 (by omega) swapSchedule oob es
      (by decide) h rthreads hT rsched).1
    simp only [List.nil_append, List.append_nil] at this
    rw [hfl, hlog] at this
    rcases this with h' | h'
    · exact Or.inl h'
    · exact Or.inr ⟨_, h', by decide +kernel⟩

/-! ## MAC fields -/

/-- **MAC fields are lost**: for every MAC field the write reports success and adds nothing to the file, and the read
gives a null pointer whatever the layer holds. -/
theorem C42_mac_lost {φ : Type} (f : φ) (g : Name) (pre post : List Entry) :
    (writeMac f).2 = true ∧ groupKids g (pre ++ (writeMac f).1 ++ post) = groupKids g (pre ++ post) ∧
    (readMac (groupKids g (pre ++ (writeMac f).1 ++ post)) : Res φ) = .null := by
  simp [writeMac, readMac]

/-- Dense fields are not: two different fields give different layers, so nothing is lost. -/
theorem C42_dense_kept {α : Type} (e : Elem α) (L : Lawful e) (hv : isVoxelType e.type = true) (dflt : α) (g : Name)
    (f f' : Dense α) (hf : f.WF) (hf' : f'.WF) (hx : V32 f.extents.min ∧ V32 f.extents.max)
    (hd : V32 f.dw.min ∧ V32 f.dw.max) (hx' : V32 f'.extents.min ∧ V32 f'.extents.max)
    (hd' : V32 f'.dw.min ∧ V32 f'.dw.max) (h : groupKids g (denseEntries e f) = groupKids g (denseEntries e f')) :
    f = f' := by
  have h1 := readDense_ok e L hv dflt g [] [] (by simp [Foreign]) (by simp) f hf hx hd
  have h2 := readDense_ok e L hv dflt g [] [] (by simp [Foreign]) (by simp) f' hf' hx' hd'
  simp only [List.nil_append, List.append_nil] at h1 h2
  rw [h, h2] at h1
  simpa using h1.symm

/-- A dense field with a data window that does not start at the origin. -/
def sampleDense : Dense (UInt8 × UInt8) :=
  ⟨⟨⟨0, 0, 0⟩, ⟨1, 0, 0⟩⟩, ⟨⟨-1, 0, 0⟩, ⟨1, 1, 0⟩⟩, 3, 6, [(0, 0), (0, 0), (0, 0), (7, 8), (0, 0), (0, 0)]⟩
def sampleDense0 : Dense (UInt8 × UInt8) :=
  ⟨⟨⟨0, 0, 0⟩, ⟨1, 0, 0⟩⟩, ⟨⟨-1, 0, 0⟩, ⟨1, 1, 0⟩⟩, 3, 6, [(0, 0), (0, 0), (0, 0), (0, 0), (0, 0), (0, 0)]⟩

example : readDense half16 (0, 0) (groupKids [76] (samplePre ++ denseEntries half16 sampleDense ++ [])) =
    .ok sampleDense := by
  refine C37_dense_round_trip half16 half16_lawful rfl (0, 0) [76] samplePre [] samplePre_foreign (by simp)
    ⟨⟨0, 0, 0⟩, ⟨1, 0, 0⟩⟩ ⟨⟨-1, 0, 0⟩, ⟨1, 1, 0⟩⟩ sampleDense0 (by rfl)
    [.write ⟨-1, 1, 0⟩ (7, 8)] sampleDense (by rfl) ⟨⟨?_, ?_, ?_⟩, ⟨?_, ?_, ?_⟩⟩ ⟨⟨?_, ?_, ?_⟩, ⟨?_, ?_, ?_⟩⟩ <;>
    constructor <;> decide

/-! ## Files whose parts do not fit together -/

/-- A dense layer with any data in it. -/
def layerWith (t : DataType) (ext dw : Box3i) (components : Int) (bytes : List UInt8) : List Entry :=
  [.attribute kVersion .int32 (encInt 1)] ++ windowEntries ext dw ++
  [.attribute kComponents .int32 (encInt components), .dataset kData t [bytes]]

/-- **Disagreement**: the dense reader does not compare the size of the stored data to the size of the field. For every
data window and every data, it writes outside the buffer of the field exactly when the data is longer than the field;
shorter data is accepted silently. -/
theorem C67_dense_overrun {α : Type} (e : Elem α) (L : Lawful e) (hv : isVoxelType e.type = true) (dflt : α)
    (g : Name) (ext dw : Box3i) (components : Int) (hx : V32 ext.min ∧ V32 ext.max) (hd : V32 dw.min ∧ V32 dw.max)
    (hne : dw.isEmpty = false) (bytes : List UInt8) (hb : bytes ≠ []) :
    (readDense e dflt (groupKids g (layerWith e.type ext dw components bytes)) = .crash ↔
      dw.vol * e.type.bytes < bytes.length) ∧
    (bytes.length ≤ dw.vol * e.type.bytes →
      ∃ f, readDense e dflt (groupKids g (layerWith e.type ext dw components bytes)) = .ok f ∧
        f.extents = ext ∧ f.dw = dw ∧
        ∀ vals : List α, bytes = e.encAll vals → f.data = vals ++ List.replicate (dw.vol - vals.length) dflt) := by
  have hn : ∀ x ∈ layerWith e.type ext dw components bytes, plainName (nameOf x) := by
    intro x hx
    have : nameOf x ∈ formatNames := by
      simp only [layerWith, windowEntries, List.mem_append, List.mem_cons, List.not_mem_nil, or_false] at hx
      rcases hx with (rfl | rfl | rfl | rfl | rfl) | rfl | rfl <;> simp only [nameOf] <;> decide
    exact (formatNames_ok _ this).2
  have s := fun nm hm => (formatNames_ok nm hm).1
  have hw := readWindows_ok g _ ext dw hn hx hd rfl rfl rfl rfl rfl
  have hc := attr_get g kComponents .int32 (encInt components) _ (s _ (by decide)) hn rfl (by decide) rfl
  obtain ⟨⟨d, h1, h2, h3⟩, h4⟩ := dataset_get false g kData e.type [bytes] _ (s _ (by decide)) hn
    (by intro x hx; rw [List.mem_singleton] at hx; rw [hx]; exact hb) rfl
  simp only [Bool.false_eq_true, if_false] at h1 h4
  obtain ⟨f0, e1, w0, e2, e3, e4⟩ := Dense.setSize_ok (dflt := dflt) (e := ext) hne
  have key : readDense e dflt (groupKids g (layerWith e.type ext dw components bytes)) =
      match e.overlay f0.data bytes with
      | none => .crash
      | some data => .ok { f0 with data } := by
    rw [readDense, hw, bind_ok, hc, bind_ok, h4]
    simp only [hv, and_self, if_true]
    rw [readDenseData, e1]
    simp only [h1, bind_ok]
    rw [h3 0]
    rfl
  have hl : (e.encAll f0.data).length = dw.vol * e.type.bytes := by
    rw [encAll_length L, e4, List.length_replicate]
  rw [key]
  unfold Elem.overlay
  rw [hl]
  by_cases h : bytes.length ≤ dw.vol * e.type.bytes
  · rw [if_pos h]
    simp only [reduceCtorEq, false_iff, Nat.not_lt]
    refine ⟨h, fun _ => ⟨_, rfl, e3, e2, fun vals hvals => ?_⟩⟩
    have hlv : bytes.length = vals.length * e.type.bytes := by rw [hvals, encAll_length L]
    have hpos : 0 < e.type.bytes := by
      revert hv; cases e.type <;> decide
    have hle : vals.length ≤ dw.vol := by
      rw [hlv] at h
      exact Nat.le_of_mul_le_mul_right h hpos
    have hrest : (e.encAll f0.data).drop bytes.length = e.encAll (List.replicate (dw.vol - vals.length) dflt) := by
      rw [e4]
      have : List.replicate dw.vol dflt =
          List.replicate vals.length dflt ++ List.replicate (dw.vol - vals.length) dflt := by
        rw [List.replicate_append_replicate]; congr 1; omega
      rw [this]
      unfold Elem.encAll
      rw [List.flatMap_append]
      refine List.drop_left' ?_
      rw [hlv]
      exact (encAll_length L _).trans (by rw [List.length_replicate])
    show e.decAll f0.data.length (bytes ++ (e.encAll f0.data).drop bytes.length) = _
    have happ : e.encAll vals ++ e.encAll (List.replicate (dw.vol - vals.length) dflt) =
        e.encAll (vals ++ List.replicate (dw.vol - vals.length) dflt) := by
      unfold Elem.encAll; rw [List.flatMap_append]
    have hlen : f0.data.length = (vals ++ List.replicate (dw.vol - vals.length) dflt).length := by
      rw [e4, List.length_append, List.length_replicate, List.length_replicate]; omega
    rw [hrest, hvals, happ, hlen]
    have := decAll_encAll L (vals ++ List.replicate (dw.vol - vals.length) dflt) []
    rwa [List.append_nil] at this
  · rw [if_neg h]
    simp only [true_iff]
    exact ⟨by omega, fun h' => absurd h' h⟩

/-- One voxel, four bytes of data for a two-byte voxel. -/
example : readDense half16 (0, 0) (groupKids [76] (layerWith .float16 ⟨⟨0, 0, 0⟩, ⟨0, 0, 0⟩⟩ ⟨⟨0, 0, 0⟩, ⟨0, 0, 0⟩⟩ 1
    [1, 2, 3, 4])) = .crash := by
  refine (C67_dense_overrun half16 half16_lawful rfl (0, 0) [76] _ _ 1 ?_ ?_ (by decide) _ (by decide)).1.mpr (by decide)
  all_goals refine ⟨⟨?_, ?_, ?_⟩, ⟨?_, ?_, ?_⟩⟩ <;> constructor <;> decide

/-- Two of the three voxels of the window are stored: the last keeps the default value. -/
example : ∃ f, readDense half16 (9, 9) (groupKids [76] (layerWith half16.type ⟨⟨0, 0, 0⟩, ⟨2, 0, 0⟩⟩
      ⟨⟨0, 0, 0⟩, ⟨2, 0, 0⟩⟩ 1 [1, 2, 3, 4])) = .ok f ∧ f.data = [(1, 2), (3, 4), (9, 9)] := by
  obtain ⟨f, h, _, _, hd⟩ := (C67_dense_overrun half16 half16_lawful rfl (9, 9) [76] ⟨⟨0, 0, 0⟩, ⟨2, 0, 0⟩⟩
    ⟨⟨0, 0, 0⟩, ⟨2, 0, 0⟩⟩ 1 (by refine ⟨⟨?_, ?_, ?_⟩, ⟨?_, ?_, ?_⟩⟩ <;> constructor <;> decide)
    (by refine ⟨⟨?_, ?_, ?_⟩, ⟨?_, ?_, ?_⟩⟩ <;> constructor <;> decide) (by decide) [1, 2, 3, 4] (by decide)).2 (by decide)
  exact ⟨f, h, hd [(1, 2), (3, 4)] (by decide)⟩

/-- A dense layer whose data set has no element: reading throws, for every window and voxel type. -/
theorem C67_dense_without_data {α : Type} (e : Elem α) (hv : isVoxelType e.type = true) (dflt : α)
    (g : Name) (ext dw : Box3i) (components : Int) (hx : V32 ext.min ∧ V32 ext.max) (hd : V32 dw.min ∧ V32 dw.max) :
    readDense e dflt (groupKids g ([.attribute kVersion .int32 (encInt 1)] ++ windowEntries ext dw ++
      [.attribute kComponents .int32 (encInt components), .dataset kData e.type []])) = .exception := by
  have hn : ∀ x ∈ ([.attribute kVersion .int32 (encInt 1)] ++ windowEntries ext dw ++
      [.attribute kComponents .int32 (encInt components), .dataset kData e.type []] : List Entry),
      plainName (nameOf x) := by
    intro x hx
    have : nameOf x ∈ formatNames := by
      simp only [windowEntries, List.mem_append, List.mem_cons, List.not_mem_nil, or_false] at hx
      rcases hx with (rfl | rfl | rfl | rfl | rfl) | rfl | rfl <;> simp only [nameOf] <;> decide
    exact (formatNames_ok _ this).2
  have s := fun nm hm => (formatNames_ok nm hm).1
  have hw := readWindows_ok g _ ext dw hn hx hd rfl rfl rfl rfl rfl
  have hc := attr_get g kComponents .int32 (encInt components) _ (s _ (by decide)) hn rfl (by decide) rfl
  obtain ⟨⟨d, h1, h2, h3⟩, h4⟩ := dataset_get false g kData e.type [] _ (s _ (by decide)) hn
    (by intro x hx; simp at hx) rfl
  simp only [Bool.false_eq_true, if_false] at h1 h4
  rw [readDense, hw, bind_ok, hc, bind_ok, h4]
  simp only [hv, and_self, if_true]
  rw [readDenseData]
  cases Dense.setSize dflt ext dw with
  | resizeException => rfl
  | ok f =>
    simp only [h1, bind_ok]
    rw [h3 0]
    rfl

/-! ## What a file says of its layers -/

/-- Number of components of a voxel and bits of a component. -/
def Describes (t : DataType) (components bits : Nat) : Prop :=
  (t = .float16 ∧ components = 1 ∧ bits = 16) ∨ (t = .float32 ∧ components = 1 ∧ bits = 32) ∨
  (t = .float64 ∧ components = 1 ∧ bits = 64) ∨ (t = .vec16 ∧ components = 3 ∧ bits = 16) ∨
  (t = .vec32 ∧ components = 3 ∧ bits = 32) ∨ (t = .vec64 ∧ components = 3 ∧ bits = 64)

theorem describes_dims (t : DataType) (h : isVoxelType t = true) : Describes t (dims t) (bits t) := by
  unfold Describes; revert h; cases t <;> decide

/-- A written dense layer states the components and bits of its voxels, and these make up the bytes of one voxel. -/
theorem C37_stated_format {α : Type} (e : Elem α) (hv : isVoxelType e.type = true) (g : Name) (pre post : List Entry)
    (hp : Foreign pre) (hq : ∀ x ∈ post, plainName (nameOf x)) (f : Dense α) :
    ∃ c b : Nat, Describes e.type c b ∧ c * b = 8 * e.type.bytes ∧
      attr .int32 kComponents (groupKids g (pre ++ denseEntries e f ++ post)) = .ok (encInt c) ∧
      attr .int32 kBits (groupKids g (pre ++ denseEntries e f ++ post)) = .ok (encInt b) := by
  have hn := layer_names hp (dense_names e f) hq
  have ff : ∀ k nm, nm ∈ formatNames →
      firstOf k nm (pre ++ denseEntries e f ++ post) = firstOf k nm (denseEntries e f ++ post) := by
    intro k nm hm
    rw [List.append_assoc, foreign_first hp k nm hm]
  have s := fun nm hm => (formatNames_ok nm hm).1
  refine ⟨dims e.type, bits e.type, describes_dims _ hv, ?_, ?_, ?_⟩
  · revert hv; cases e.type <;> decide
  · exact attr_get g kComponents .int32 _ _ (s _ (by decide)) hn (by rw [ff _ _ (by decide)]; rfl) (by decide) rfl
  · exact attr_get g kBits .int32 _ _ (s _ (by decide)) hn (by rw [ff _ _ (by decide)]; rfl) (by decide) rfl

/-- A written sparse layer states the components and bits of its voxels, the order and number of its blocks, and how
many blocks have voxels of their own. -/
theorem C38_stated_format {α : Type} (e : Elem α) (hv : isVoxelType e.type = true) (z : Zlib) (g : Name)
    (pre post : List Entry) (hp : Foreign pre) (hq : ∀ x ∈ post, plainName (nameOf x)) (f : Sparse α) (hf : f.WF)
    (log : List Nat) (es : List Entry) (hes : sparseEntries e z f log = some es) :
    ∃ c b : Nat, Describes e.type c b ∧
      attr .uint8 kComponents (groupKids g (pre ++ es ++ post)) = .ok [UInt8.ofNat c] ∧
      attr .uint8 kBits (groupKids g (pre ++ es ++ post)) = .ok [UInt8.ofNat b] ∧
      attr .uint8 kBlockOrder (groupKids g (pre ++ es ++ post)) = .ok [UInt8.ofNat f.order] ∧
      attr .uint32 kNumBlocks (groupKids g (pre ++ es ++ post)) = .ok (le32 f.blocks.length) ∧
      attr .uint32 kOccupied (groupKids g (pre ++ es ++ post)) =
        .ok (le32 (f.blocks.countP fun b => b.isAllocated)) := by
  have hpl := plain_sparse e z f log es hes
  have hn := layer_names hp hpl hq
  have ff : ∀ k nm, nm ∈ formatNames →
      firstOf k nm (pre ++ es ++ post) = firstOf k nm (es ++ post) := by
    intro k nm hm
    rw [List.append_assoc, foreign_first hp k nm hm]
  have s := fun nm hm => (formatNames_ok nm hm).1
  have hnb' : (f.bres.x * f.bres.y * f.bres.z).toNat = f.blocks.length := by rw [numBlocks_eq f hf]; rfl
  unfold sparseEntries at hes
  simp only [hnb', List.take_length] at hes
  cases hm : log.mapM (blockBytes e z f) with
  | none => rw [hm] at hes; cases hes
  | some els =>
    rw [hm] at hes
    simp only [Option.some.injEq] at hes
    subst hes
    rw [List.countP_eq_length_filter]
    refine ⟨dims e.type, bits e.type, describes_dims _ hv, ?_, ?_, ?_, ?_, ?_⟩
    · exact attr_get g kComponents .uint8 _ _ (s _ (by decide)) hn (by rw [ff _ _ (by decide)]; rfl) (by decide) rfl
    · exact attr_get g kBits .uint8 _ _ (s _ (by decide)) hn (by rw [ff _ _ (by decide)]; rfl) (by decide) rfl
    · exact attr_get g kBlockOrder .uint8 _ _ (s _ (by decide)) hn (by rw [ff _ _ (by decide)]; rfl) (by decide) rfl
    · exact attr_get g kNumBlocks .uint32 _ _ (s _ (by decide)) hn (by rw [ff _ _ (by decide)]; rfl) (by decide) rfl
    · exact attr_get g kOccupied .uint32 _ _ (s _ (by decide)) hn (by rw [ff _ _ (by decide)]; rfl) (by decide) rfl

end F3D.Props

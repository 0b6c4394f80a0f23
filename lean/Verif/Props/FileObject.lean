import Verif.Model.FileObject
import Verif.Props.FilesAll

/-!
# C81: one file object, several files, two formats
-/

namespace F3D.Props
open Og Ogawa FieldIO FileObject
open _root_.F3D.Metadata (Meta readMeta readOne)
open _root_.F3D.Files (kGlobal FieldClass Loaded)

variable {M L F : Type}

/-! ## Specification -/

/-- Calls on an input object that never meet a file that is not an Ogawa file. -/
def OgawaOnly (cs : List InCall) : Prop := ∀ c ∈ cs, match c with
  | .open (.hdf5 _) => False
  | .open .other => False
  | _ => True

/-- Metadata `m` is that of a file, `w`, over that of before. -/
def LaidOver (w m0 m : Meta) : Prop := ∀ n k, lookup m n k = (lookup w n k).or (lookup m0 n k)

/-- Calls on an output object that make Ogawa files only. -/
def OgawaOut (cs : List (OutCall M)) : Prop := ∀ c ∈ cs, ∀ ok, c ≠ .create false ok

/-- What the call is for an Ogawa file … -/
def forOgawa : OutCall M → Files.Call M
  | .create _ ok => .create ok
  | .close => .close
  | .write w _ => .write w
  | .writeTyped w => .write w
  | .global es _ => .global es

/-- … and for an HDF5 file. -/
def forHdf5 : OutCall M → Option (Hdf5.Call M)
  | .write _ h => some (.write h)
  | .global _ m => some (.global m)
  | _ => none

/-- Scalar and vector layers and metadata of the file are written, in any order. -/
def Writing (cs : List (OutCall M)) : Prop := ∀ c ∈ cs, (∃ w h, c = .write w h) ∨ ∃ es m, c = .global es m

/-! ## Reading -/

theorem clear_hdf5 (s : FileObject.In L) : s.clear.hdf5 = s.hdf5.map fun h => { h with parts := [], file := none } := by
  unfold FileObject.In.clear
  cases s.hdf5 <;> rfl

theorem close_hdf5 (s : FileObject.In L) : s.close.hdf5 = s.hdf5.map fun h => { h with file := none } := by
  unfold FileObject.In.close
  cases s.hdf5 <;> rfl

theorem clear_none {s : FileObject.In L} (h : s.hdf5 = none) : s.clear = ⟨⟨[], s.own.info, []⟩, none⟩ := by
  obtain ⟨o, d⟩ := s
  subst h
  rfl

/-- **C81, HDF5 files.** Whatever the object was used for before, an HDF5 file that can be opened is opened, and
everything that is read through the object is what a new HDF5 object reads (C80). -/
theorem C81_hdf5_after_anything [FieldClass F] (R : Maps L) (cs : List InCall) (s : FileObject.In L)
    (_ : FileObject.In.run R .new cs = some s) (root : Hdf5.Obj) (i : Hdf5.In L)
    (h : Hdf5.In.openFile R.ord R.hdf5 root Hdf5.In.new = some (true, i)) :
    ∃ t, s.open R (.hdf5 root) = some (true, t) ∧ t.saysHdf5 = true ∧ t.metadata = i.info ∧
      (∀ v, t.listing v = i.listing v) ∧
      (∀ (fo : Name → Name → List Tree → Res F) fh v u l, t.readLayers R fo fh v u l = i.readLayers R.ord fh v u l) ∧
      ∀ (fo : Name → Name → List Tree → Res F) fh v l, t.readAll R fo fh v l = i.readAll R.ord fh v l := by
  refine ⟨{ s.clear with hdf5 := some i }, ?_, rfl, rfl, fun _ => rfl, fun _ _ _ _ _ => rfl, fun _ _ _ _ => rfl⟩
  show openHdf5 R root s.clear = _
  unfold openHdf5
  rw [h]

theorem lay_put {w m0 m : Meta} (h : LaidOver w m0 m) (n : Name) (v : MVal) : LaidOver (put w n v) m0 (put m n v) := by
  intro n' k
  rw [lookup_put, lookup_put, h n' k]
  split <;> simp

theorem readOne_lay (kids : List Tree) (nm : Name) {w m0 m w' : Meta} (h : LaidOver w m0 m) (e : readOne kids w nm = some w') :
    ∃ m', readOne kids m nm = some m' ∧ LaidOver w' m0 m' := by
  unfold readOne at e ⊢
  cases h1 : Metadata.found .string nm kids with
  | none => rw [h1] at e; simp at e
  | some s =>
  cases h2 : Metadata.found .int32 nm kids with
  | none => rw [h1, h2] at e; simp at e
  | some i =>
  cases h3 : Metadata.found .float32 nm kids with
  | none => rw [h1, h2, h3] at e; simp at e
  | some f =>
  cases h4 : Metadata.found .veci32 nm kids with
  | none => rw [h1, h2, h3, h4] at e; simp at e
  | some vi =>
  cases h5 : Metadata.found .vec32 nm kids with
  | none => rw [h1, h2, h3, h4, h5] at e; simp at e
  | some vf =>
  rw [h1, h2, h3, h4, h5] at e
  simp only [Option.bind_some, Option.some.injEq] at e ⊢
  refine ⟨_, rfl, ?_⟩
  subst e
  have a1 := fun (w m : Meta) (v : List UInt8) (h : LaidOver w m0 m) => lay_put h nm (.str v)
  have a2 := fun (w m : Meta) v (h : LaidOver w m0 m) => lay_put h nm (.int v)
  have a3 := fun (w m : Meta) v (h : LaidOver w m0 m) => lay_put h nm (.float v)
  have a4 := fun (w m : Meta) v (h : LaidOver w m0 m) => lay_put h nm (.vecInt v)
  have a5 := fun (w m : Meta) v (h : LaidOver w m0 m) => lay_put h nm (.vecFloat v)
  simp only [put] at a1 a2 a3 a4 a5
  cases s <;> cases i <;> cases f <;> cases vi <;> cases vf <;>
    simp only [] <;> first | exact h | (repeat first | apply a5 | apply a4 | apply a3 | apply a2 | apply a1) <;> exact h

theorem readMeta_lay (kids : List Tree) (m0 : Meta) {w : Meta} (e : readMeta kids .empty = some w) :
    ∃ m, readMeta kids m0 = some m ∧ LaidOver w m0 m := by
  unfold readMeta at e ⊢
  cases hn : names .attribute kids with
  | none => rw [hn] at e; simp at e
  | some l =>
    rw [hn] at e
    simp only [Option.bind_some] at e ⊢
    have key : ∀ (l : List Name) (w0 m1 w : Meta), LaidOver w0 m0 m1 → l.foldlM (readOne kids) w0 = some w →
        ∃ m, l.foldlM (readOne kids) m1 = some m ∧ LaidOver w m0 m := by
      intro l
      induction l with
      | nil =>
        intro w0 m1 w h e
        simp only [List.foldlM_nil, Option.pure_def, Option.some.injEq] at e
        subst e
        exact ⟨m1, rfl, h⟩
      | cons n l ih =>
        intro w0 m1 w h e
        rw [List.foldlM_cons] at e ⊢
        cases hr : readOne kids w0 n with
        | none => rw [hr] at e; simp at e
        | some w1 =>
          rw [hr] at e
          obtain ⟨m2, h1, h2⟩ := readOne_lay kids n h hr
          obtain ⟨m, h3, h4⟩ := ih w1 m2 w h2 e
          exact ⟨m, by rw [h1]; exact h3, h4⟩
    refine key l .empty m0 w ?_ e
    intro n k
    cases k <;> rfl

/-- Opening by a used object gives the partitions that opening by a new one gives. -/
theorem openOwn_ok (readMap : List Tree → Res L) (root : List Tree) (m0 : Meta) (i : Files.In L)
    (h : Files.openFile readMap root = .ok i) :
    ∃ m, openOwn readMap root ⟨[], m0, []⟩ = some (true, ⟨i.parts, m, i.root⟩) ∧ LaidOver i.info m0 m := by
  unfold Files.openFile at h
  unfold openOwn
  cases hv : Files.versionOk root with
  | none => rw [hv] at h; simp at h
  | some b =>
  cases b with
  | false => rw [hv] at h; simp at h
  | true =>
  rw [hv] at h
  simp only at h ⊢
  cases hf : find .group kGlobal root with
  | none => rw [hf] at h; simp at h
  | some g =>
  rw [hf] at h
  simp only at h ⊢
  have rest : ∀ w m, LaidOver w m0 m → (match Files.readInfo readMap root with
      | .ok ps => .ok (⟨ps, w, root⟩ : Files.In L)
      | .exception => .null | .null => .null | .crash => .crash | .running => .running) = Res.ok i →
      (match names .group root with
        | none => none
        | some l => match Files.readMappings readMap root (l.filter fun x => x ≠ kGlobal) with
          | .ok ps => match Files.readAllLayers root (l.filter fun x => x ≠ kGlobal) ([] ++ ps) with
            | none => none
            | some ps => some (true, (⟨ps, m, root⟩ : Files.In L))
          | .crash => none
          | .running => none
          | _ => some (false, ⟨[], m, root⟩)) = some (true, ⟨i.parts, m, i.root⟩) ∧ LaidOver i.info m0 m := by
    intro w m h2 h
    unfold Files.readInfo at h
    cases hn : names .group root with
    | none => rw [hn] at h; simp at h
    | some l =>
    rw [hn] at h
    simp only at h ⊢
    cases hr : Files.readMappings readMap root (l.filter fun x => x ≠ kGlobal) with
    | ok ps =>
      rw [hr] at h
      simp only [Res.bind, List.nil_append] at h ⊢
      cases ha : Files.readAllLayers root (l.filter fun x => x ≠ kGlobal) ps with
      | none => rw [ha] at h; simp at h
      | some qs =>
        rw [ha] at h
        simp only [Res.ok.injEq] at h ⊢
        subst h
        exact ⟨rfl, h2⟩
    | _ => rw [hr] at h; simp [Res.bind] at h
  cases g with
  | none => exact ⟨m0, rest .empty m0 (fun n k => by cases k <;> rfl) h⟩
  | some ks =>
    simp only at h ⊢
    cases hm : readMeta ks .empty with
    | none => rw [hm] at h; simp at h
    | some w =>
      obtain ⟨m, h1, h2⟩ := readMeta_lay ks m0 hm
      rw [hm] at h
      rw [h1]
      exact ⟨m, rest w m h2 h⟩

theorem run_own (R : Maps L) (cs : List InCall) : ∀ (s t : FileObject.In L), OgawaOnly cs → s.hdf5 = none →
    FileObject.In.run R s cs = some t → t.hdf5 = none := by
  induction cs with
  | nil =>
    intro s t _ hs h
    simp only [FileObject.In.run, Option.some.injEq] at h
    subst h
    exact hs
  | cons c cs ih =>
    intro s t ho hs h
    unfold FileObject.In.run at h
    cases hc : s.step R c with
    | none => rw [hc] at h; simp at h
    | some u =>
      rw [hc] at h
      refine ih u t (fun c hc => ho c (by simp [hc])) ?_ h
      have hclear : s.clear.hdf5 = none := by rw [clear_hdf5, hs]; rfl
      have hh := ho c (by simp)
      cases c with
      | close =>
        simp only [FileObject.In.step, Option.some.injEq] at hc
        subst hc
        rw [close_hdf5, hs]; rfl
      | clear =>
        simp only [FileObject.In.step, Option.some.injEq] at hc
        subst hc
        exact hclear
      | «open» d =>
        simp only [FileObject.In.step, Option.map_eq_some_iff] at hc
        obtain ⟨p, hp, rfl⟩ := hc
        cases d with
        | missing =>
          simp only [FileObject.In.open, Option.some.injEq] at hp
          subst hp
          show s.clear.close.hdf5 = none
          rw [close_hdf5, hclear]; rfl
        | ogawa root =>
          simp only [FileObject.In.open] at hp
          split at hp
          · simp at hp
          · simp only [Option.some.injEq] at hp
            subst hp
            exact hclear
          · simp only [Option.some.injEq] at hp
            subst hp
            show (FileObject.In.close _).hdf5 = none
            rw [close_hdf5, hclear]; rfl
        | hdf5 root => exact absurd hh (by simp)
        | other => exact absurd hh (by simp)

/-- **C81, Ogawa files after Ogawa files.** An object that has met only Ogawa files and missing files (whether opening them
succeeded or not) opens an Ogawa file and reads it as a new object does (C43, C44), by the functions for scalar and vector
layers and by `readLayers` alike; only the metadata of the file is laid over that of the files before. -/
theorem C81_ogawa_after_ogawa [FieldClass F] (R : Maps L) (cs : List InCall) (ho : OgawaOnly cs) (s : FileObject.In L)
    (hs : FileObject.In.run R .new cs = some s) (root : List Tree) (i : Files.In L)
    (h : Files.openFile R.ogawa root = .ok i) :
    ∃ t, s.open R (.ogawa root) = some (true, t) ∧ t.saysHdf5 = false ∧ LaidOver i.info s.metadata t.metadata ∧
      (∀ v, t.listing v = i.listing) ∧
      (∀ (fo : Name → Name → List Tree → Res F) fh v u l, t.readLayers R fo fh v u l = i.readLayers fo u l ∧
        t.readTyped fo u l = i.readLayers fo u l) ∧
      ∀ (fo : Name → Name → List Tree → Res F) fh v l, t.readAll R fo fh v l = i.readAll fo l ∧
        t.readAllTyped fo l = i.readAll fo l := by
  have h0 := run_own R cs .new s ho rfl hs
  obtain ⟨m, h1, h2⟩ := openOwn_ok R.ogawa root s.own.info i h
  have hc := clear_none h0
  refine ⟨⟨⟨i.parts, m, i.root⟩, none⟩, ?_, rfl, ?_, fun _ => rfl, fun _ _ _ _ _ => ⟨rfl, rfl⟩, fun _ _ _ _ => ⟨rfl, rfl⟩⟩
  · simp only [FileObject.In.open]
    rw [hc, h1]
  · have : s.metadata = s.own.info := by unfold FileObject.In.metadata; rw [h0]
    rw [this]
    exact h2

/-- So a new object reads an Ogawa file as it is. -/
theorem C81_new_object_ogawa [FieldClass F] (R : Maps L) (root : List Tree) (i : Files.In L)
    (h : Files.openFile R.ogawa root = .ok i) :
    ∃ t, FileObject.In.open R .new (.ogawa root) = some (true, t) ∧ t.saysHdf5 = false ∧
      (∀ n k, lookup t.metadata n k = lookup i.info n k) ∧ (∀ v, t.listing v = i.listing) ∧
      (∀ (fo : Name → Name → List Tree → Res F) fh v u l, t.readLayers R fo fh v u l = i.readLayers fo u l) := by
  obtain ⟨t, h1, h2, h3, h4, h5, -⟩ := C81_ogawa_after_ogawa (F := F) R [] (by simp [OgawaOnly]) .new rfl root i h
  refine ⟨t, h1, h2, fun n k => ?_, h4, fun fo fh v u l => (h5 fo fh v u l).1⟩
  rw [h3 n k]
  have : lookup (FileObject.In.metadata (FileObject.In.new : FileObject.In L)) n k = none := by cases k <;> rfl
  rw [this]
  simp

/-- An HDF5 object, once made, stays. -/
theorem run_stuck (R : Maps L) (cs : List InCall) : ∀ (s t : FileObject.In L), s.hdf5.isSome = true →
    FileObject.In.run R s cs = some t → t.hdf5.isSome = true := by
  induction cs with
  | nil =>
    intro s t hs h
    simp only [FileObject.In.run, Option.some.injEq] at h
    subst h
    exact hs
  | cons c cs ih =>
    intro s t hs h
    unfold FileObject.In.run at h
    cases hc : s.step R c with
    | none => rw [hc] at h; simp at h
    | some u =>
      rw [hc] at h
      refine ih u t ?_ h
      have hclear : s.clear.hdf5.isSome = true := by rw [clear_hdf5, Option.isSome_map]; exact hs
      cases c with
      | close =>
        simp only [FileObject.In.step, Option.some.injEq] at hc
        subst hc
        rw [close_hdf5, Option.isSome_map]; exact hs
      | clear =>
        simp only [FileObject.In.step, Option.some.injEq] at hc
        subst hc
        exact hclear
      | «open» d =>
        simp only [FileObject.In.step, Option.map_eq_some_iff] at hc
        obtain ⟨p, hp, rfl⟩ := hc
        cases d with
        | missing =>
          simp only [FileObject.In.open, Option.some.injEq] at hp
          subst hp
          show s.clear.close.hdf5.isSome = true
          rw [close_hdf5, Option.isSome_map]; exact hclear
        | ogawa root =>
          simp only [FileObject.In.open] at hp
          split at hp
          · simp at hp
          · simp only [Option.some.injEq] at hp
            subst hp
            exact hclear
          · simp only [Option.some.injEq] at hp
            subst hp
            show (FileObject.In.close _).hdf5.isSome = true
            rw [close_hdf5, Option.isSome_map]; exact hclear
        | hdf5 root =>
          simp only [FileObject.In.open, openHdf5] at hp
          split at hp
          · simp at hp
          · simp only [Option.some.injEq] at hp
            subst hp
            rfl
          · simp only [Option.some.injEq] at hp
            subst hp
            show (FileObject.In.close _).hdf5.isSome = true
            rw [close_hdf5]; rfl
        | other =>
          simp only [FileObject.In.open, Option.some.injEq] at hp
          subst hp
          show (FileObject.In.close _).hdf5.isSome = true
          rw [close_hdf5]; rfl

theorem run_split (R : Maps L) (a b : List InCall) : ∀ s : FileObject.In L,
    FileObject.In.run R s (a ++ b) = (FileObject.In.run R s a).bind fun t => FileObject.In.run R t b := by
  induction a with
  | nil => intro s; rfl
  | cons c a ih =>
    intro s
    show (s.step R c).bind (fun t => FileObject.In.run R t (a ++ b)) =
      ((s.step R c).bind fun t => FileObject.In.run R t a).bind fun t => FileObject.In.run R t b
    cases s.step R c with
    | none => rfl
    | some t => exact ih t

/-- **Disagreement**: an object that was once given a file that is not an Ogawa file (an HDF5 file, or any file that could
not be opened as one) never reads an Ogawa file again, whatever it is used for in between and although `open` returns true:
the functions for scalar and vector layers find nothing, nothing is listed, and `encoding` says "HDF5". -/
theorem C81_no_ogawa_after_hdf5 [FieldClass F] (R : Maps L) (before after : List InCall) (d : Disk)
    (hd : (∃ r, d = .hdf5 r) ∨ d = .other) (s : FileObject.In L)
    (hs : FileObject.In.run R .new (before ++ .open d :: after) = some s) (root : List Tree) (t : FileObject.In L) (b : Bool)
    (ht : s.open R (.ogawa root) = some (b, t)) :
    t.saysHdf5 = true ∧ (∀ v, t.listing v = []) ∧
      (∀ (fo : Name → Name → List Tree → Res F) fh v u l, t.readLayers R fo fh v u l = .ok []) ∧
      ∀ (fo : Name → Name → List Tree → Res F) fh v l, t.readAll R fo fh v l = .ok [] := by
  rw [run_split] at hs
  cases h1 : FileObject.In.run R (FileObject.In.new : FileObject.In L) before with
  | none => rw [h1] at hs; simp at hs
  | some s1 =>
    rw [h1] at hs
    simp only [Option.bind_some, FileObject.In.run] at hs
    cases h2 : s1.step R (.open d) with
    | none => rw [h2] at hs; simp at hs
    | some s2 =>
      rw [h2] at hs
      simp only [Option.bind_some] at hs
      have hs2 : s2.hdf5.isSome = true := by
        simp only [FileObject.In.step, Option.map_eq_some_iff] at h2
        obtain ⟨p, hp, rfl⟩ := h2
        rcases hd with ⟨r, rfl⟩ | rfl
        · simp only [FileObject.In.open, openHdf5] at hp
          split at hp
          · simp at hp
          · simp only [Option.some.injEq] at hp
            subst hp; rfl
          · simp only [Option.some.injEq] at hp
            subst hp
            show (FileObject.In.close _).hdf5.isSome = true
            rw [close_hdf5]; rfl
        · simp only [FileObject.In.open, Option.some.injEq] at hp
          subst hp
          show (FileObject.In.close _).hdf5.isSome = true
          rw [close_hdf5]; rfl
      obtain ⟨h, hh⟩ := Option.isSome_iff_exists.1 (run_stuck R after s2 s hs2 hs)
      have hclear : s.clear.hdf5 = some { h with parts := [], file := none } := by rw [clear_hdf5, hh]; rfl
      have htt : ∃ k : Hdf5.In L, t.hdf5 = some k ∧ k.parts = [] := by
        simp only [FileObject.In.open] at ht
        split at ht
        · simp at ht
        · simp only [Option.some.injEq, Prod.mk.injEq] at ht
          obtain ⟨-, rfl⟩ := ht
          exact ⟨_, hclear, rfl⟩
        · simp only [Option.some.injEq, Prod.mk.injEq] at ht
          obtain ⟨-, rfl⟩ := ht
          refine ⟨{ h with parts := [], file := none }, ?_, rfl⟩
          rw [close_hdf5, hclear]; rfl
      obtain ⟨k, hk, hk0⟩ := htt
      refine ⟨by unfold FileObject.In.saysHdf5; rw [hk]; rfl, fun v => ?_, fun fo fh v u l => ?_, fun fo fh v l => ?_⟩
      · unfold FileObject.In.listing
        rw [hk]
        simp [Hdf5.In.listing, hk0]
      · unfold FileObject.In.readLayers
        rw [hk]
        simp only [Hdf5.In.readLayers, hk0, List.map_nil, List.flatMap_nil, Files.collect]
        split <;> rfl
      · unfold FileObject.In.readAll
        rw [hk]
        simp only [Hdf5.In.readAll, hk0, List.map_nil, List.flatMap_nil, Files.collect]

/-- … while opening a good Ogawa file does return true. -/
theorem C81_open_still_true (R : Maps L) (d : Disk) (s : FileObject.In L)
    (hd : (∃ r, d = .hdf5 r) ∨ d = .other) (hs : FileObject.In.run R .new [.open d] = some s) (root : List Tree)
    (i : Files.In L) (h : Files.openFile R.ogawa root = .ok i) : ∃ t, s.open R (.ogawa root) = some (true, t) := by
  have hown : s.own = ⟨[], .empty, []⟩ := by
    simp only [FileObject.In.run, FileObject.In.step, Option.bind_eq_some_iff, Option.map_eq_some_iff] at hs
    obtain ⟨u, ⟨p, hp, rfl⟩, e⟩ := hs
    simp only [Option.some.injEq] at e
    subst e
    rcases hd with ⟨r, rfl⟩ | rfl
    · simp only [FileObject.In.open, openHdf5] at hp
      split at hp
      · simp at hp
      · simp only [Option.some.injEq] at hp
        subst hp; rfl
      · simp only [Option.some.injEq] at hp
        subst hp; rfl
    · simp only [FileObject.In.open, Option.some.injEq] at hp
      subst hp; rfl
  have hc : s.clear.own = ⟨[], .empty, []⟩ := by
    unfold FileObject.In.clear
    cases hh : s.hdf5 with
    | none => simp only [hown]
    | some x => simp only [hown]
  obtain ⟨m, h1, -⟩ := openOwn_ok R.ogawa root .empty i h
  refine ⟨{ s.clear with own := ⟨i.parts, m, i.root⟩ }, ?_⟩
  simp only [FileObject.In.open]
  rw [hc, h1]

/-- **Disagreement**: `readLayers` finds nothing in an HDF5 file that was opened by an object that had met only Ogawa files. -/
theorem C81_typed_read_of_hdf5_is_empty [FieldClass F] (R : Maps L) (cs : List InCall) (ho : OgawaOnly cs)
    (s : FileObject.In L) (hs : FileObject.In.run R .new cs = some s) (root : Hdf5.Obj) (b : Bool) (t : FileObject.In L)
    (ht : s.open R (.hdf5 root) = some (b, t)) (fo : Name → Name → List Tree → Res F) (u l : Name) :
    t.readTyped fo u l = .ok [] ∧ t.readAllTyped fo l = .ok [] := by
  have h0 := run_own R cs .new s ho rfl hs
  have hc := clear_none h0
  have hown : t.own = ⟨[], s.own.info, []⟩ := by
    simp only [FileObject.In.open, openHdf5] at ht
    rw [hc] at ht
    split at ht
    · simp at ht
    · simp only [Option.some.injEq, Prod.mk.injEq] at ht
      obtain ⟨-, rfl⟩ := ht
      rfl
    · simp only [Option.some.injEq, Prod.mk.injEq] at ht
      obtain ⟨-, rfl⟩ := ht
      rfl
  unfold FileObject.In.readTyped FileObject.In.readAllTyped
  rw [hown]
  constructor
  · simp only [Files.In.readLayers, List.map_nil, List.flatMap_nil, Files.collect]
    split <;> rfl
  · simp only [Files.In.readAll, List.map_nil, List.flatMap_nil, Files.collect]

/-- **Disagreement**: metadata of an Ogawa file that was opened before stays, unless the next file has the same names. -/
theorem C81_metadata_stays (R : Maps L) (cs : List InCall) (ho : OgawaOnly cs) (s : FileObject.In L)
    (hs : FileObject.In.run R .new cs = some s) (root : List Tree) (i : Files.In L)
    (h : Files.openFile R.ogawa root = .ok i) (n : Name) (k : MKind) (v : MVal) (hv : lookup s.metadata n k = some v)
    (hi : lookup i.info n k = none) :
    ∃ t, s.open R (.ogawa root) = some (true, t) ∧ lookup t.metadata n k = some v := by
  obtain ⟨t, h1, h2, h3, -⟩ := C81_ogawa_after_ogawa (F := UInt8) R cs ho s hs root i h
  exact ⟨t, h1, by rw [h3 n k, hi, hv]; rfl⟩

/-! ## Writing -/

theorem run_hdf5 (C : Formats M) (cs : List (OutCall M)) (hw : Writing cs) : ∀ (own : Option (Files.Out M)) (o : Hdf5.Out M),
    FileObject.Out.run C ⟨own, some o⟩ cs = (Hdf5.Out.run C.hdf5 o (cs.filterMap forHdf5)).map fun x =>
      (x.1.map retOf, ⟨own, some x.2⟩) := by
  induction cs with
  | nil => intro own o; rfl
  | cons c cs ih =>
    intro own o
    have ih' := ih (fun c hc => hw c (by simp [hc]))
    have key : ∀ (r : Hdf5.Ret × Hdf5.Out M) (step : Files.Ret × FileObject.Out M),
        step = (retOf r.1, ⟨own, some r.2⟩) →
        (match step with
          | (.crash, _) => none
          | (q, s) => (FileObject.Out.run C s cs).map fun (x : List Files.Ret × FileObject.Out M) => (q :: x.1, x.2)) =
        (match r with
          | (.crash, _) => none
          | (q, o) => (Hdf5.Out.run C.hdf5 o (cs.filterMap forHdf5)).map
              fun (x : List Hdf5.Ret × Hdf5.Out M) => (q :: x.1, x.2)).map fun (x : List Hdf5.Ret × Hdf5.Out M) =>
            (x.1.map retOf, (⟨own, some x.2⟩ : FileObject.Out M)) := by
      rintro ⟨r, o'⟩ step rfl
      cases r <;> simp only [retOf, Option.map_none] <;> rw [ih', Option.map_map, Option.map_map] <;> rfl
    rcases hw c (by simp) with ⟨w, h, rfl⟩ | ⟨es, m, rfl⟩
    · have := key (Hdf5.writeLayer C.hdf5 h o) (FileObject.Out.write C ⟨own, some o⟩ w h) rfl
      unfold FileObject.Out.run
      simp only [List.filterMap_cons, forHdf5]
      unfold Hdf5.Out.run
      exact this
    · have := key (Hdf5.writeGlobal m o) (FileObject.Out.global ⟨own, some o⟩ es m) rfl
      unfold FileObject.Out.run
      simp only [List.filterMap_cons, forHdf5]
      unfold Hdf5.Out.run
      exact this

/-- **C81, writing HDF5 files.** Whatever the object was used for before, after `useOgawa(false)` and a `create` that
succeeds, scalar and vector layers and the metadata of the file are written as by a new HDF5 object (C80): every call has
the result it has there, and the file is the same. -/
theorem C81_write_hdf5_after_anything (C : Formats M) (s : FileObject.Out M) (cs : List (OutCall M)) (hw : Writing cs)
    (rs : List Hdf5.Ret) (o : Hdf5.Out M)
    (h : Hdf5.Out.run C.hdf5 (Hdf5.Out.new.create true) (cs.filterMap forHdf5) = some (rs, o)) :
    ∃ t, FileObject.Out.run C s (.create false true :: cs) = some (.written :: rs.map retOf, t) ∧ t.hdf5 = some o := by
  refine ⟨⟨s.own, some o⟩, ?_, rfl⟩
  have e : s.create false true = ⟨s.own, some (Hdf5.Out.new.create true)⟩ := rfl
  unfold FileObject.Out.run
  simp only [FileObject.Out.step, if_true, e]
  rw [run_hdf5 C cs hw, h]
  rfl

/-- **C81, writing Ogawa files.** An object with which only Ogawa files are made is what `C43` and `C44` are about: every
call has the same result, and the same is in the file. -/
theorem C81_write_ogawa (C : Formats M) (cs : List (OutCall M)) (ho : OgawaOut cs) :
    FileObject.Out.run C .new cs = (Files.Out.run C.ogawa .new (cs.map forOgawa)).map fun x => (x.1, ⟨some x.2, none⟩) := by
  have key : ∀ (cs : List (OutCall M)), OgawaOut cs → ∀ o : Files.Out M, FileObject.Out.run C ⟨some o, none⟩ cs =
      (Files.Out.run C.ogawa o (cs.map forOgawa)).map fun x => (x.1, ⟨some x.2, none⟩) := by
    intro cs
    induction cs with
    | nil => intro _ o; rfl
    | cons c cs ih =>
      intro ho o
      have ih' := ih (fun c hc => ho c (by simp [hc]))
      have hc := ho c (by simp)
      have hstep : FileObject.Out.step C ⟨some o, none⟩ c =
          ((Files.Out.step C.ogawa o (forOgawa c)).1, ⟨some (Files.Out.step C.ogawa o (forOgawa c)).2, none⟩) := by
        cases c with
        | create u ok =>
          cases u with
          | true => rfl
          | false => exact absurd rfl (hc ok)
        | close => rfl
        | write w h => rfl
        | writeTyped w => rfl
        | global es m => rfl
      unfold FileObject.Out.run
      rw [hstep, List.map_cons]
      unfold Files.Out.run
      cases hr : Files.Out.step C.ogawa o (forOgawa c) with
      | mk r o' => cases r <;> simp only [Option.map_none] <;> rw [ih', Option.map_map, Option.map_map] <;> rfl
  exact key cs ho _

/-- An HDF5 object, once made, stays. -/
theorem out_stuck (C : Formats M) (cs : List (OutCall M)) : ∀ (s t : FileObject.Out M) (rs : List Files.Ret),
    s.hdf5.isSome = true → FileObject.Out.run C s cs = some (rs, t) → t.hdf5.isSome = true := by
  induction cs with
  | nil =>
    intro s t rs hs h
    simp only [FileObject.Out.run, Option.some.injEq, Prod.mk.injEq] at h
    obtain ⟨-, rfl⟩ := h
    exact hs
  | cons c cs ih =>
    intro s t rs hs h
    obtain ⟨d, hd⟩ := Option.isSome_iff_exists.1 hs
    have hstep : (s.step C c).2.hdf5.isSome = true := by
      cases c with
      | create u ok =>
        show (s.create u ok).hdf5.isSome = true
        unfold FileObject.Out.create
        cases u <;> simp only [if_true, hd] <;> rfl
      | close =>
        show s.close.hdf5.isSome = true
        unfold FileObject.Out.close
        simp only [hd]; rfl
      | write w h' =>
        show (s.write C w h').2.hdf5.isSome = true
        unfold FileObject.Out.write
        simp only [hd]; rfl
      | writeTyped w =>
        show (s.writeTyped C w).2.hdf5.isSome = true
        unfold FileObject.Out.writeTyped
        cases s.own <;> simp only [hd] <;> rfl
      | global es m =>
        show (s.global es m).2.hdf5.isSome = true
        unfold FileObject.Out.global
        simp only [hd]; rfl
    unfold FileObject.Out.run at h
    cases hr : s.step C c with
    | mk r u =>
      rw [hr] at h hstep
      have key : ∀ q, (FileObject.Out.run C u cs).map (fun x => (q :: x.1, x.2)) = some (rs, t) →
          t.hdf5.isSome = true := by
        intro q hq
        obtain ⟨x, hx, e⟩ := Option.map_eq_some_iff.1 hq
        simp only [Prod.mk.injEq] at e
        obtain ⟨-, rfl⟩ := e
        exact ih u x.2 x.1 hstep hx
      cases r with
      | crash => simp at h
      | threw => exact key _ h
      | failed => exact key _ h
      | written => exact key _ h

/-- **Disagreement**: an object that has made an HDF5 file writes no Ogawa file any more: `create` returns true, but every
scalar and vector layer and the metadata of the file are refused, whatever is called in between; if the object has never
written to an Ogawa file, the new file stays without layers. -/
theorem C81_no_ogawa_written_after_hdf5 (C : Formats M) (ok : Bool) (before after : List (OutCall M)) (s s1 : FileObject.Out M)
    (rs rs1 : List Files.Ret) (_ : FileObject.Out.run C .new before = some (rs1, s1))
    (h2 : FileObject.Out.run C (s1.create false ok) after = some (rs, s)) (cs : List (OutCall M)) (hw : Writing cs) :
    ∃ t, FileObject.Out.run C s (.create true true :: cs) =
        some (.written :: List.replicate cs.length .failed, t) ∧
      (∀ o, s.own = some o → o.parts = [] → t.own = some (o.create true) ∧ (o.create true).parts = []) := by
  obtain ⟨d, hd⟩ := Option.isSome_iff_exists.1 (out_stuck C after _ s rs rfl h2)
  have e : s.create true true = ⟨s.own.bind fun o => if o.parts.isEmpty && true then some (o.create true) else none,
      some d.close⟩ := by
    unfold FileObject.Out.create
    simp only [if_true, hd]
  have hrun : ∀ cs : List (Hdf5.Call M), Hdf5.Session cs →
      Hdf5.Out.run C.hdf5 d.close cs = some (List.replicate cs.length .failed, d.close) := by
    intro cs
    induction cs with
    | nil => intro _; rfl
    | cons c cs ih =>
      intro hs
      have ih' := ih (fun c hc => hs c (by simp [hc]))
      rcases hs c (by simp) with ⟨w, rfl⟩ | ⟨m, rfl⟩
      · unfold Hdf5.Out.run
        have : Hdf5.Out.step C.hdf5 d.close (.write w) = (.failed, d.close) := by
          simp [Hdf5.Out.step, Hdf5.writeLayer, Hdf5.Out.close]
        rw [this]
        simp only
        rw [ih']
        rfl
      · unfold Hdf5.Out.run
        have : Hdf5.Out.step C.hdf5 d.close (.global m) = (.failed, d.close) := by
          simp [Hdf5.Out.step, Hdf5.writeGlobal, Hdf5.Out.close]
        rw [this]
        simp only
        rw [ih']
        rfl
  have hse : Hdf5.Session (cs.filterMap forHdf5) := by
    intro c hc
    obtain ⟨x, hx, e⟩ := List.mem_filterMap.1 hc
    rcases hw x hx with ⟨w, h, rfl⟩ | ⟨es, m, rfl⟩
    · simp only [forHdf5, Option.some.injEq] at e
      exact .inl ⟨h, e.symm⟩
    · simp only [forHdf5, Option.some.injEq] at e
      exact .inr ⟨m, e.symm⟩
  have hlen : ∀ cs : List (OutCall M), Writing cs → (cs.filterMap forHdf5).length = cs.length := by
    intro cs
    induction cs with
    | nil => intro _; rfl
    | cons c cs ih =>
      intro hw
      have ih' := ih (fun c hc => hw c (by simp [hc]))
      rcases hw c (by simp) with ⟨w, h, rfl⟩ | ⟨es, m, rfl⟩ <;> simp [forHdf5, ih']
  refine ⟨⟨s.own.bind fun o => if o.parts.isEmpty && true then some (o.create true) else none, some d.close⟩, ?_, ?_⟩
  · unfold FileObject.Out.run
    simp only [FileObject.Out.step, if_true, e]
    rw [run_hdf5 C cs hw, hrun _ hse, hlen cs hw]
    simp [retOf]
  · intro o ho hp
    refine ⟨?_, rfl⟩
    show (s.own.bind fun o => if o.parts.isEmpty && true then some (o.create true) else none) = _
    rw [ho, Option.bind_some, hp]
    rfl

/-- **Disagreement**: while an HDF5 file is being written, `writeLayer` is refused if the object had no Ogawa file open … -/
theorem C81_typed_write_refused (C : Formats M) (cs : List (OutCall M)) (hw : Writing cs) (rs : List Files.Ret)
    (s : FileObject.Out M) (h : FileObject.Out.run C .new (.create false true :: cs) = some (rs, s)) (w : Files.Write M) :
    s.writeTyped C w = (.failed, s) := by
  have e : FileObject.Out.create (.new : FileObject.Out M) false true =
    ⟨some Files.Out.new, some (Hdf5.Out.new.create true)⟩ := rfl
  unfold FileObject.Out.run at h
  simp only [FileObject.Out.step, if_true, e] at h
  rw [run_hdf5 C cs hw, Option.map_map] at h
  obtain ⟨x, -, hx⟩ := Option.map_eq_some_iff.1 h
  simp only [Function.comp, Prod.mk.injEq] at hx
  obtain ⟨-, rfl⟩ := hx
  simp [FileObject.Out.writeTyped, Files.writeLayer, Files.Out.new]

/-- … and otherwise writes to that Ogawa file, which is still open, even after `close`: its result and its effect are those
of writing to the Ogawa file, and the HDF5 file does not change. -/
theorem C81_typed_write_goes_to_earlier_file (C : Formats M) (before : List (OutCall M)) (_ : OgawaOut before)
    (rs : List Files.Ret) (s : FileObject.Out M) (_ : FileObject.Out.run C .new before = some (rs, s))
    (o : Files.Out M) (hs : s.own = some o) (cs : List (OutCall M)) (hw : Writing cs) (rs2 : List Files.Ret)
    (t : FileObject.Out M) (h2 : FileObject.Out.run C s (.create false true :: cs) = some (rs2, t)) (w : Files.Write M) :
    t.own = some o ∧ t.close.own = some o ∧
      ∀ u, u = t ∨ u = t.close →
        u.writeTyped C w = ((Files.writeLayer C.ogawa w o).1, { u with own := some (Files.writeLayer C.ogawa w o).2 }) := by
  have e : s.create false true = ⟨some o, some (Hdf5.Out.new.create true)⟩ := by
    unfold FileObject.Out.create
    rw [hs]
    rfl
  unfold FileObject.Out.run at h2
  simp only [FileObject.Out.step, if_true, e] at h2
  rw [run_hdf5 C cs hw, Option.map_map] at h2
  obtain ⟨x, -, hx⟩ := Option.map_eq_some_iff.1 h2
  simp only [Function.comp, Prod.mk.injEq] at hx
  obtain ⟨-, rfl⟩ := hx
  refine ⟨rfl, rfl, ?_⟩
  rintro u (rfl | rfl) <;> rfl

end F3D.Props

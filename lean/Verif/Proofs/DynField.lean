import Verif.Spec.DynField

/-!
# Invariant of fields that load their blocks from files
-/

namespace F3D.Dyn
open F3D.Props

variable {α : Type}

@[simp] theorem upd_same {β : Type} (f : Nat → β) (k : Nat) (v : β) : upd f k v k = v := by simp [upd]

theorem upd_ne {β : Type} (f : Nat → β) {k x : Nat} (v : β) (h : x ≠ k) : upd f k v x = f x := by
  simp [upd, h]

/-- The field with the given blocks. -/
def viewOf (o : Fld α) (bs : List (Block α)) : Sparse α := { o.geom with blocks := bs }

/-- A block of a field's table `b`, and what it stands for `c`. -/
structure Cell (files : Nat → Sparse α) (arr : Nat) (ref : Ref) (i : Nat) (b c : Block α) : Prop where
  alloc : b.isAllocated = c.isAllocated
  empty : b.emptyValue = c.emptyValue
  free : b.isAllocated = false → b.data = none
  data : b.isAllocated = true → ∃ d fi, c.data = some d ∧ ref.fileIdx[i]? = some (Int.ofNat fi) ∧
    (occupied (files ref.layer))[fi]? = some d ∧ ref.arr = some arr ∧
    ((ref.loaded[i]? = some true ∧ b.data = some d) ∨ (ref.loaded[i]? = some false ∧ b.data = none))

inductive FieldOk (files : Nat → Sparse α) (s : St α) (o : Fld α) (h : Handle α) : Prop
  | plain (bs : List (Block α)) (hfile : o.file = none) (hl : h.lazy = false)
      (hb : s.heap o.arr = some bs) (hr : Refines (viewOf o bs) h.map)
  | backed (r : Nat) (ref : Ref) (bs ib : List (Block α)) (hfile : o.file = some r)
      (hl : h.lazy = true) (hb : s.heap o.arr = some bs) (href : s.refs r = some ref)
      (alive : ref.alive = true) (cold : h.hot = false → ∀ k ∈ s.cache, k.1 ≠ r)
      (load : ∀ i, ref.loaded[i]? = some true ↔ (r, i) ∈ s.cache)
      (hr : Refines (viewOf o ib) h.map) (len : ib.length = bs.length)
      (cells : ∀ i b c, bs[i]? = some b → ib[i]? = some c → Cell files o.arr ref i b c)
      (same : h.edited = false → viewOf o ib = files ref.layer)

structure Inv (files : Nat → Sparse α) (s : St α) (w : World α) : Prop where
  next : s.nextF = w.next
  dead : ∀ f, s.flds f = none ↔ w.fld f = none
  ok : ∀ f o h, s.flds f = some o → w.fld f = some h → FieldOk files s o h
  fBound : ∀ f, s.nextF ≤ f → s.flds f = none
  aBound : ∀ a, s.nextA ≤ a → s.heap a = none
  rBound : ∀ r, s.nextR ≤ r → s.refs r = none
  arrInj : ∀ f g o o', s.flds f = some o → s.flds g = some o' → o.arr = o'.arr → f = g
  refInj : ∀ f g o o' r, s.flds f = some o → s.flds g = some o' → o.file = some r → o'.file = some r → f = g
  cacheOk : ∀ k ∈ s.cache, ∃ f o ref bs, s.flds f = some o ∧ o.file = some k.1 ∧
    s.refs k.1 = some ref ∧ ref.arr = some o.arr ∧ s.heap o.arr = some bs ∧ k.2 < bs.length
  owned : ∀ a, s.heap a ≠ none → ∃ f o, s.flds f = some o ∧ o.arr = a
  nodup : s.cache.Nodup

theorem FieldOk.frame {files : Nat → Sparse α} {s s' : St α} {o : Fld α} {h : Handle α}
    (k : FieldOk files s o h) (hh : s'.heap o.arr = s.heap o.arr)
    (hr : ∀ r, o.file = some r → s'.refs r = s.refs r ∧ ∀ i, (r, i) ∈ s'.cache ↔ (r, i) ∈ s.cache) :
    FieldOk files s' o h := by
  cases k with
  | plain bs hfile hl hb hrf => exact .plain bs hfile hl (hh.trans hb) hrf
  | backed r ref bs ib hfile hl hb href alive cold load hrf len cells same =>
    obtain ⟨h1, h2⟩ := hr r hfile
    refine .backed r ref bs ib hfile hl (hh.trans hb) (h1.trans href) alive ?_ ?_ hrf len cells same
    · rintro hc ⟨k1, k2⟩ hk rfl
      exact cold hc _ ((h2 k2).mp hk) rfl
    · intro i; rw [load, h2]

theorem FieldOk.heap {files : Nat → Sparse α} {s : St α} {o : Fld α} {h : Handle α}
    (k : FieldOk files s o h) : ∃ bs, s.heap o.arr = some bs := by
  cases k with
  | plain bs _ _ hb => exact ⟨bs, hb⟩
  | backed _ _ bs _ _ _ hb => exact ⟨bs, hb⟩

theorem FieldOk.file {files : Nat → Sparse α} {s : St α} {o : Fld α} {h : Handle α} {r : Nat}
    (k : FieldOk files s o h) (hf : o.file = some r) : h.lazy = true ∧ ∃ ref, s.refs r = some ref := by
  cases k with
  | plain _ hfile => rw [hfile] at hf; cases hf
  | backed r' ref _ _ hfile hl _ href =>
    rw [hfile] at hf; cases hf
    exact ⟨hl, ref, href⟩

namespace Inv
variable {files : Nat → Sparse α} {s : St α} {w : World α}

theorem get (I : Inv files s w) {f : Nat} {h : Handle α} (hf : w.fld f = some h) :
    ∃ o, s.flds f = some o ∧ FieldOk files s o h := by
  cases e : s.flds f with
  | none => rw [(I.dead f).mp e] at hf; cases hf
  | some o => exact ⟨o, rfl, I.ok f o h e hf⟩

theorem ghost (I : Inv files s w) {f : Nat} {o : Fld α} (hf : s.flds f = some o) :
    ∃ h, w.fld f = some h ∧ FieldOk files s o h := by
  cases e : w.fld f with
  | none => rw [(I.dead f).mpr e] at hf; cases hf
  | some h => exact ⟨h, rfl, I.ok f o h hf e⟩

theorem arr_lt (I : Inv files s w) {f : Nat} {o : Fld α} (hf : s.flds f = some o) : o.arr < s.nextA := by
  obtain ⟨h, _, k⟩ := I.ghost hf
  obtain ⟨bs, hb⟩ := k.heap
  apply Nat.lt_of_not_le
  intro hle
  rw [I.aBound _ hle] at hb; cases hb

theorem ref_lt (I : Inv files s w) {f r : Nat} {o : Fld α} (hf : s.flds f = some o)
    (hr : o.file = some r) : r < s.nextR := by
  obtain ⟨h, _, k⟩ := I.ghost hf
  obtain ⟨_, ref, hb⟩ := k.file hr
  apply Nat.lt_of_not_le
  intro hle
  rw [I.rBound _ hle] at hb; cases hb

theorem cold (I : Inv files s w) {f : Nat} {o : Fld α} {h : Handle α} (hf : s.flds f = some o)
    (hw : w.fld f = some h) (hd : World.discardable h) :
    ∀ r, o.file = some r → ∀ k ∈ s.cache, k.1 ≠ r := by
  intro r hr
  have k := I.ok f o h hf hw
  cases k with
  | plain _ hfile => rw [hfile] at hr; cases hr
  | backed r' ref bs ib hfile hl hb href alive cold =>
    rw [hfile] at hr; cases hr
    exact cold (hd hl)

/-- One field is made or replaced: its table is new, the table of the field that it replaces is gone,
and nothing of that field is in the cache. -/
theorem place (I : Inv files s w) {s' : St α} {w' : World α} {f : Nat} {o' : Fld α} {h' : Handle α}
    (hfl : s'.flds = upd s.flds f (some o')) (hwl : ∀ g, w'.fld g = if g = f then some h' else w.fld g)
    (hnext : s'.nextF = w'.next) (hle : s.nextF ≤ s'.nextF) (hlt : f < s'.nextF)
    (harr : o'.arr = s.nextA) (hA : s'.nextA = s.nextA + 1) (hR : s.nextR ≤ s'.nextR)
    (hsame : ∀ g o, g ≠ f → s.flds g = some o → s'.heap o.arr = s.heap o.arr)
    (hheap : ∀ a, s'.heap a ≠ none → a = s.nextA ∨ (s.heap a ≠ none ∧ ∀ o, s.flds f = some o → o.arr ≠ a))
    (hrefs : ∀ r, r < s.nextR → s'.refs r = s.refs r) (hrb : ∀ r, s'.nextR ≤ r → s'.refs r = none)
    (hcache : s'.cache = s.cache)
    (hfile : ∀ r, o'.file = some r → s.nextR ≤ r ∨ ∃ o, s.flds f = some o ∧ o.file = some r)
    (hcold : ∀ o r, s.flds f = some o → o.file = some r → ∀ k ∈ s.cache, k.1 ≠ r)
    (hok : FieldOk files s' o' h') : Inv files s' w' := by
  have key : ∀ g o, g ≠ f → s.flds g = some o → ∀ r, o'.file = some r → o.file ≠ some r := by
    intro g o hg ho r hr hr'
    rcases hfile r hr with h1 | ⟨o2, h2, h3⟩
    · have := I.ref_lt ho hr'; omega
    · exact hg (I.refInj g f o o2 r ho h2 hr' h3)
  have get : ∀ g, g ≠ f → s'.flds g = s.flds g := by intro g hg; rw [hfl, upd_ne _ _ hg]
  have getf : s'.flds f = some o' := by rw [hfl, upd_same]
  refine ⟨hnext, ?_, ?_, ?_, ?_, hrb, ?_, ?_, ?_, ?_, by rw [hcache]; exact I.nodup⟩
  · intro g
    by_cases hg : g = f
    · subst hg; rw [getf, hwl, if_pos rfl]; simp
    · rw [get g hg, hwl, if_neg hg]; exact I.dead g
  · intro g o h ho hh
    by_cases hg : g = f
    · subst hg
      rw [getf] at ho; rw [hwl, if_pos rfl] at hh
      cases ho; cases hh; exact hok
    · rw [get g hg] at ho; rw [hwl, if_neg hg] at hh
      refine (I.ok g o h ho hh).frame (hsame g o hg ho) ?_
      intro r hr
      exact ⟨hrefs r (I.ref_lt ho hr), fun i => by rw [hcache]⟩
  · intro g hg
    have : g ≠ f := by omega
    rw [get g this]
    exact I.fBound g (by omega)
  · intro a ha
    apply Classical.byContradiction
    intro hn
    rcases hheap a hn with h1 | ⟨h1, _⟩
    · omega
    · exact h1 (I.aBound a (by omega))
  · intro g g' o o2 hg hg' he
    by_cases h1 : g = f <;> by_cases h2 : g' = f
    · omega
    · subst h1; rw [getf] at hg; cases hg
      rw [get g' h2] at hg'
      have := I.arr_lt hg'
      omega
    · subst h2; rw [getf] at hg'; cases hg'
      rw [get g h1] at hg
      have := I.arr_lt hg
      omega
    · rw [get g h1] at hg; rw [get g' h2] at hg'
      exact I.arrInj g g' o o2 hg hg' he
  · intro g g' o o2 r hg hg' he he'
    by_cases h1 : g = f <;> by_cases h2 : g' = f
    · omega
    · subst h1; rw [getf] at hg; cases hg
      rw [get g' h2] at hg'
      exact absurd he' (key g' o2 h2 hg' r he)
    · subst h2; rw [getf] at hg'; cases hg'
      rw [get g h1] at hg
      exact absurd he (key g o h1 hg r he')
    · rw [get g h1] at hg; rw [get g' h2] at hg'
      exact I.refInj g g' o o2 r hg hg' he he'
  · intro k hk
    rw [hcache] at hk
    obtain ⟨g, o, ref, bs, h1, h2, h3, h4, h5, h6⟩ := I.cacheOk k hk
    have hg : g ≠ f := by
      rintro rfl
      exact hcold o k.1 h1 h2 k hk rfl
    exact ⟨g, o, ref, bs, by rw [get g hg]; exact h1, h2, by rw [hrefs _ (I.ref_lt h1 h2)]; exact h3, h4,
      by rw [hsame g o hg h1]; exact h5, h6⟩
  · intro a ha
    rcases hheap a ha with h1 | ⟨h1, h2⟩
    · exact ⟨f, o', getf, by rw [harr, h1]⟩
    · obtain ⟨g, o, hg, rfl⟩ := I.owned a h1
      have hgf : g ≠ f := by
        rintro rfl
        exact h2 o hg rfl
      exact ⟨g, o, by rw [get g hgf]; exact hg, rfl⟩

/-- One field keeps its table and its reference, whose contents may change. -/
theorem touch (I : Inv files s w) {s' : St α} {w' : World α} {f : Nat} {o : Fld α} {h h' : Handle α}
    (hf : s.flds f = some o) (hw : w.fld f = some h)
    (hfl : s'.flds = s.flds) (hwl : ∀ g, w'.fld g = if g = f then some h' else w.fld g)
    (hn : w'.next = w.next) (hF : s'.nextF = s.nextF)
    (hA : s'.nextA = s.nextA) (hR : s'.nextR = s.nextR)
    (hheap : ∀ a, a ≠ o.arr → s'.heap a = s.heap a)
    (hrefs : ∀ r, o.file ≠ some r → s'.refs r = s.refs r)
    (hcache : ∀ k, o.file ≠ some k.1 → (k ∈ s'.cache ↔ k ∈ s.cache))
    (hnd : s'.cache.Nodup)
    (hown : ∀ k ∈ s'.cache, o.file = some k.1 → ∃ ref bs, s'.refs k.1 = some ref ∧ ref.arr = some o.arr ∧
      s'.heap o.arr = some bs ∧ k.2 < bs.length)
    (hok : FieldOk files s' o h') : Inv files s' w' := by
  have oarr : ∀ g o', g ≠ f → s.flds g = some o' → o'.arr ≠ o.arr := by
    intro g o' hg ho he
    exact hg (I.arrInj g f o' o ho hf he)
  have ofile : ∀ g o' r, g ≠ f → s.flds g = some o' → o'.file = some r → o.file ≠ some r := by
    intro g o' r hg ho he he'
    exact hg (I.refInj g f o' o r ho hf he he')
  refine ⟨by rw [hF, hn]; exact I.next, ?_, ?_, by rw [hF, hfl]; exact I.fBound, ?_, ?_,
    by rw [hfl]; exact I.arrInj, by rw [hfl]; exact I.refInj, ?_, ?_, hnd⟩
  · intro g
    rw [hfl, hwl]
    by_cases hg : g = f
    · subst hg; rw [hf]; simp
    · rw [if_neg hg]; exact I.dead g
  · intro g o' h2 ho hh
    rw [hfl] at ho
    rw [hwl] at hh
    by_cases hg : g = f
    · subst hg; rw [hf] at ho; cases ho
      rw [if_pos rfl] at hh; cases hh
      exact hok
    · rw [if_neg hg] at hh
      refine (I.ok g o' h2 ho hh).frame (hheap _ (oarr g o' hg ho)) ?_
      intro r hr
      exact ⟨hrefs r (ofile g o' r hg ho hr), fun i => hcache (r, i) (ofile g o' r hg ho hr)⟩
  · intro a ha
    rw [hA] at ha
    have : a ≠ o.arr := by have := I.arr_lt hf; omega
    rw [hheap a this]; exact I.aBound a ha
  · intro r hr
    rw [hR] at hr
    have : o.file ≠ some r := by
      intro he
      have := I.ref_lt hf he; omega
    rw [hrefs r this]; exact I.rBound r hr
  · intro k hk
    by_cases ho : o.file = some k.1
    · obtain ⟨ref, bs, h1, h2, h3, h4⟩ := hown k hk ho
      exact ⟨f, o, ref, bs, by rw [hfl]; exact hf, ho, h1, h2, h3, h4⟩
    · obtain ⟨g, o', ref, bs, h1, h2, h3, h4, h5, h6⟩ := I.cacheOk k ((hcache k ho).mp hk)
      have hg : g ≠ f := by
        rintro rfl
        rw [hf] at h1; cases h1; exact ho h2
      exact ⟨g, o', ref, bs, by rw [hfl]; exact h1, h2, by rw [hrefs _ ho]; exact h3, h4,
        by rw [hheap _ (oarr g o' hg h1)]; exact h5, h6⟩
  · intro a ha
    by_cases h1 : a = o.arr
    · exact ⟨f, o, by rw [hfl]; exact hf, h1.symm⟩
    · rw [hheap a h1] at ha
      rw [hfl]; exact I.owned a ha

end Inv

/-! ## Geometry -/

theorem wf_eq {f g : Sparse α} (hf : f.WF) (hg : g.WF) (he : f.extents = g.extents) (hd : f.dw = g.dw)
    (ho : f.order = g.order) (hb : f.blocks = g.blocks) : f = g := by
  obtain ⟨fe, fd, fo, ⟨fx, fy, fz⟩, fxy, fb⟩ := f
  obtain ⟨ge, gd, go, ⟨gx, gy, gz⟩, gxy, gb⟩ := g
  dsimp only at *
  subst he hd ho hb
  have h1 := hf.bx.trans hg.bx.symm
  have h2 := hf.by'.trans hg.by'.symm
  have h3 := hf.bz.trans hg.bz.symm
  have h4 := hf.bxy.trans hg.bxy.symm
  dsimp only at h1 h2 h3 h4
  subst h1 h2 h3 h4
  rfl

/-- The geometry after `setupBlocks` is the geometry of any well-formed field with the same window and
block order. -/
theorem setup_view (zero : α) {f g : Sparse α} (hf : f.WF) (fits : Sparse.Fits f.dw)
    (he : g.extents = f.extents) (hd : g.dw = f.dw) (ho : g.order = f.order) :
    { g.setupBlocks zero with blocks := f.blocks } = f ∧ (g.setupBlocks zero).blocks.length = f.blocks.length := by
  obtain ⟨wf, -⟩ := Sparse.setupBlocks_wf (zero := zero) (f := g) (by rw [hd]; exact hf.ne) (by rw [hd]; exact fits)
  have hlen : (g.setupBlocks zero).blocks.length = f.blocks.length := by
    rw [wf.len, hf.len]
    show Sparse.bn g.order g.dw.nx * Sparse.bn g.order g.dw.ny * Sparse.bn g.order g.dw.nz = _
    rw [hd, ho]
  refine ⟨wf_eq ?_ hf he hd ho rfl, hlen⟩
  refine ⟨wf.ne, wf.bx, wf.by', wf.bz, wf.bxy, hlen.symm.trans wf.len, ?_⟩
  intro b hb
  have := hf.blk b hb
  have hv : ({ g.setupBlocks zero with blocks := f.blocks } : Sparse α).bvol = f.bvol := by
    show 2 ^ g.order * 2 ^ g.order * 2 ^ g.order = 2 ^ f.order * 2 ^ f.order * 2 ^ f.order
    rw [ho]
  rw [hv]; exact this

/-- Every block has a voxel. -/
theorem exists_voxel {f : Sparse α} (wf : f.WF) {i : Nat} (hi : i < f.blocks.length) :
    ∃ p, f.dw.contains p = true ∧ f.idN p = i := by
  rw [wf.len] at hi
  obtain ⟨g1, g2, g3⟩ := Grid.dec_bounds hi
  refine ⟨f.voxAt (i % Sparse.bn f.order f.dw.nx) (i / Sparse.bn f.order f.dw.nx % Sparse.bn f.order f.dw.ny)
      (i / (Sparse.bn f.order f.dw.nx * Sparse.bn f.order f.dw.ny)) 0, ?_, ?_⟩
  · have hz : ∀ n : Nat, 0 % 2 ^ n = 0 ∧ 0 / 2 ^ n % 2 ^ n = 0 ∧ 0 / (2 ^ n * 2 ^ n) = 0 := by
      intro n; simp
    obtain ⟨z1, z2, z3⟩ := hz f.order
    unfold Sparse.voxAt
    rw [z1, z2, z3, Sparse.mem_iff_nat wf.ne]
    exact ⟨Sparse.mul_lt_of_lt_bn g1, Sparse.mul_lt_of_lt_bn g2, Sparse.mul_lt_of_lt_bn g3⟩
  · have hpos : 0 < f.bvol := Nat.mul_pos (Nat.mul_pos (Nat.two_pow_pos _) (Nat.two_pow_pos _)) (Nat.two_pow_pos _)
    rw [(Sparse.voxAt_addr hpos).1]
    exact Grid.enc_dec _ _ _

/-! ## Numbering of blocks -/

theorem numberBlocks_congr (f : Block α → Block α) (hf : ∀ b, (f b).isAllocated = b.isAllocated)
    (bs : List (Block α)) : ∀ n, numberBlocks (bs.map f) n = numberBlocks bs n := by
  induction bs with
  | nil => intro n; rfl
  | cons b bs ih => intro n; simp only [List.map_cons, numberBlocks, hf, ih]

theorem numberBlocks_flags {bs cs : List (Block α)} (hl : bs.length = cs.length)
    (h : ∀ (i : Nat) (b c : Block α), bs[i]? = some b → cs[i]? = some c → b.isAllocated = c.isAllocated) :
    ∀ n, numberBlocks bs n = numberBlocks cs n := by
  induction bs generalizing cs with
  | nil => cases cs with
    | nil => intro n; rfl
    | cons _ _ => simp at hl
  | cons b bs ih => cases cs with
    | nil => simp at hl
    | cons c cs =>
      intro n
      have h0 := h 0 b c rfl rfl
      have := ih (cs := cs) (by simpa using hl) (fun i x y hx hy => h (i + 1) x y (by simpa using hx) (by simpa using hy))
      simp only [numberBlocks, h0, this]

theorem numberBlocks_length (bs : List (Block α)) : ∀ n, (numberBlocks bs n).length = bs.length := by
  induction bs with
  | nil => intro n; rfl
  | cons b bs ih => intro n; simp only [numberBlocks]; split <;> simp [ih]

theorem numberBlocks_spec (bs : List (Block α)) : ∀ (n : Nat) (i : Nat) (b : Block α) (d : List α),
    bs[i]? = some b → b.isAllocated = true → b.data = some d → 
    (∀ b ∈ bs, b.isAllocated = true → b.data ≠ none) → ∃ fi : Nat, (numberBlocks bs n)[i]? = some (Int.ofNat (n + fi)) ∧
      (bs.filterMap fun b => if b.isAllocated then b.data else none)[fi]? = some d := by
  induction bs with
  | nil => intro n i b d h; simp at h
  | cons c cs ih =>
    intro n i b d h ha hd hall
    have hall' : ∀ b ∈ cs, b.isAllocated = true → b.data ≠ none := fun b hb => hall b (List.mem_cons_of_mem _ hb)
    cases i with
    | zero =>
      simp only [List.getElem?_cons_zero, Option.some.injEq] at h
      subst h
      refine ⟨0, ?_, ?_⟩
      · simp [numberBlocks, ha]
      · simp [ha, hd]
    | succ i =>
      simp only [List.getElem?_cons_succ] at h
      cases hc : c.isAllocated with
      | false =>
        obtain ⟨fi, h1, h2⟩ := ih n i b d h ha hd hall'
        refine ⟨fi, ?_, ?_⟩
        · simp [numberBlocks, hc, h1]
        · simp [hc, h2]
      | true =>
        obtain ⟨fi, h1, h2⟩ := ih (n + 1) i b d h ha hd hall'
        refine ⟨fi + 1, ?_, ?_⟩
        · simp only [numberBlocks, hc, if_true, List.getElem?_cons_succ]
          have : (Int.ofNat (n + (fi + 1))) = Int.ofNat (n + 1 + fi) := by congr 1; omega
          rw [this, ← h1]; rfl
        · cases hcd : c.data with
          | none => exact absurd hcd (hall c (List.mem_cons_self) hc)
          | some dd => simp [hc, hcd, h2]

end F3D.Dyn

import Verif.Model.IterPins
import Verif.Props.SparseIter

/-!
# C101: iterators over a dynamically loaded field pin the block they are in
-/

namespace F3D.Props
open F3D F3D.IterPins

variable {α : Type}

/-! ## Specification -/

/-- Blocks along an axis of `n` voxels. -/
def blocksAlong (side : Nat) (lo hi : Int) : Int := (hi - lo + side) / side

/-- The number of the block that a position belongs to: blocks of `2^order` voxels a side are counted
from the corner of the data window, x first. -/
def blockNumber (w : Box3i) (order : Nat) (p : V3i) : Int :=
  let s : Int := (2 ^ order : Nat)
  (p.z - w.min.z) / s * (blocksAlong (2 ^ order) w.min.x w.max.x * blocksAlong (2 ^ order) w.min.y w.max.y) +
    (p.y - w.min.y) / s * blocksAlong (2 ^ order) w.min.x w.max.x + (p.x - w.min.x) / s

/-- The block is one whose values are in the file. -/
def InFile (f : Sparse α) (stored : Nat → Bool) (b : Nat) : Prop :=
  (∃ c, f.blocks[b]? = some c ∧ c.isAllocated = true) ∧ stored b = true

/-- How many of the positions are in block `b`. -/
def positionsIn (w : Box3i) (order : Nat) (b : Nat) : List V3i → Nat
  | [] => 0
  | p :: ps => (if blockNumber w order p = b then 1 else 0) + positionsIn w order b ps

/-- Use of iterators without copies: windows are non-empty and inside the data window, and only an
iterator that is at a voxel of its window is advanced or dereferenced. -/
def UsesWell (f : Sparse α) (s : St) : Op → Prop
  | .first w => w.isEmpty = false ∧ f.dw.contains w.min = true ∧ f.dw.contains w.max = true
  | .last w => w.isEmpty = false ∧ f.dw.contains w.min = true ∧ f.dw.contains w.max = true
  | .next i => ∃ w it, s.its[i]? = some (w, it) ∧ w.contains it.pos = true
  | .deref i => ∃ w it, s.its[i]? = some (w, it) ∧ w.contains it.pos = true
  | .destroy i => i < s.its.length
  | .copy _ => False
  | .assign _ _ => False

/-- Histories of such calls that run to their end. -/
inductive Used (f : Sparse α) (stored : Nat → Bool) (refs₀ : Nat → Int) : St → Prop
  | start : Used f stored refs₀ ⟨refs₀, []⟩
  | step (s s' : St) (op : Op) : Used f stored refs₀ s → UsesWell f s op →
      IterPins.step f stored s op = some s' → Used f stored refs₀ s'

/-! ## Proofs -/

/-- What the iterator with block id `id` contributes to the count of block `b`. -/
def pinW (f : Sparse α) (stored : Nat → Bool) (id : Int) (b : Nat) : Int :=
  if id = b ∧ allocatedAt f id = true ∧ stored b = true then 1 else 0

theorem allocatedAt_range {f : Sparse α} {id : Int} (h : allocatedAt f id = true) :
    0 ≤ id ∧ id < f.blocks.length := by
  unfold allocatedAt Sparse.block? at h
  by_cases h0 : 0 ≤ id
  · rw [if_pos h0] at h
    refine ⟨h0, ?_⟩
    by_cases hl : id.toNat < f.blocks.length
    · omega
    · rw [List.getElem?_eq_none (by omega)] at h
      simp at h
  · rw [if_neg h0] at h
    simp at h

theorem dec_eq (f : Sparse α) (stored : Nat → Bool) (refs : Nat → Int) {id : Int} (h0 : 0 ≤ id)
    (ha : allocatedAt f id = true) (b : Nat) :
    decBlockRef stored refs id.toNat b = refs b - pinW f stored id b := by
  unfold decBlockRef pinW
  by_cases hb : id = b
  · have hb' : id.toNat = b := by omega
    rw [hb']
    subst hb
    by_cases hs : stored b = true
    · simp [hs, ha]
    · simp [hs]
  · have hb' : b ≠ id.toNat := by omega
    by_cases hs : stored id.toNat = true
    · simp [hs, hb, hb']
    · simp [hs, hb]

theorem inc_eq (f : Sparse α) (stored : Nat → Bool) (refs : Nat → Int) {id : Int} (h0 : 0 ≤ id)
    (ha : allocatedAt f id = true) (b : Nat) :
    incBlockRef stored refs id.toNat b = refs b + pinW f stored id b := by
  unfold incBlockRef pinW
  by_cases hb : id = b
  · have hb' : id.toNat = b := by omega
    rw [hb']
    subst hb
    by_cases hs : stored b = true
    · simp [hs, ha]
    · simp [hs]
  · have hb' : b ≠ id.toNat := by omega
    by_cases hs : stored id.toNat = true
    · simp [hs, hb, hb']
    · simp [hs, hb]

theorem pinW_zero {f : Sparse α} {stored : Nat → Bool} {id : Int} {b : Nat}
    (h : allocatedAt f id ≠ true) : pinW f stored id b = 0 := by
  unfold pinW
  rw [if_neg (fun c => h c.2.1)]

theorem setupPins_eq {f : Sparse α} (wf : f.WF) (stored : Nat → Bool) (refs : Nat → Int)
    (old new : Int) (b : Nat) :
    setupPins f stored refs old new b =
      refs b - pinW f stored old b + pinW f stored new b := by
  unfold setupPins
  rw [Sparse.table_size wf]
  have hnew : new ≥ (f.blocks.length : Nat) → allocatedAt f new ≠ true :=
    fun h c => by have := allocatedAt_range c; omega
  by_cases he : old = new
  · subst he
    simp
  · have hleft : (if old ≠ new ∧ 0 ≤ old ∧ old < f.blocks.length ∧ allocatedAt f old = true then
        decBlockRef stored refs old.toNat else refs) b = refs b - pinW f stored old b := by
      by_cases ha : allocatedAt f old = true
      · obtain ⟨r0, r1⟩ := allocatedAt_range ha
        rw [if_pos ⟨he, r0, r1, ha⟩, dec_eq f stored refs r0 ha]
      · rw [if_neg (fun c => ha c.2.2.2), pinW_zero ha]; omega
    by_cases hr : new ≥ (f.blocks.length : Nat)
    · rw [if_pos hr, hleft, pinW_zero (hnew hr)]; omega
    · rw [if_neg hr]
      by_cases ha : allocatedAt f new = true
      · obtain ⟨r0, r1⟩ := allocatedAt_range ha
        rw [if_pos ⟨ha, he, r0⟩, inc_eq f stored _ r0 ha, hleft]
      · rw [if_neg (fun c => ha c.1), hleft, pinW_zero ha]; omega

theorem destroyPins_eq (f : Sparse α) (stored : Nat → Bool) (refs : Nat → Int) (id : Int) (b : Nat) :
    destroyPins f stored refs id b = refs b - pinW f stored id b := by
  unfold destroyPins
  by_cases ha : allocatedAt f id = true
  · obtain ⟨r0, r1⟩ := allocatedAt_range ha
    rw [if_pos ⟨r0, r1, ha⟩, dec_eq f stored refs r0 ha]
  · rw [if_neg (fun c => ha c.2.2), pinW_zero ha]; omega

/-- The contributions of a list of iterators. -/
def pinSum (f : Sparse α) (stored : Nat → Bool) (b : Nat) : List (Box3i × Sparse.DynIter) → Int
  | [] => 0
  | it :: l => pinW f stored it.2.blockId b + pinSum f stored b l

theorem pinSum_append (f : Sparse α) (stored : Nat → Bool) (b : Nat)
    (l : List (Box3i × Sparse.DynIter)) (it) :
    pinSum f stored b (l ++ [it]) = pinSum f stored b l + pinW f stored it.2.blockId b := by
  induction l with
  | nil => simp [pinSum]
  | cons a l ih => simp only [List.cons_append, pinSum, ih]; omega

theorem pinSum_set (f : Sparse α) (stored : Nat → Bool) (b : Nat) :
    ∀ (l : List (Box3i × Sparse.DynIter)) (i : Nat) (a it), l[i]? = some a →
      pinSum f stored b (l.set i it) =
        pinSum f stored b l - pinW f stored a.2.blockId b + pinW f stored it.2.blockId b
  | [], i, a, it, h => by simp at h
  | c :: l, 0, a, it, h => by
    simp at h
    subst h
    simp only [List.set_cons_zero, pinSum]; omega
  | c :: l, i + 1, a, it, h => by
    simp at h
    simp only [List.set_cons_succ, pinSum, pinSum_set f stored b l i a it h]; omega

theorem pinSum_erase (f : Sparse α) (stored : Nat → Bool) (b : Nat) :
    ∀ (l : List (Box3i × Sparse.DynIter)) (i : Nat) (a), l[i]? = some a →
      pinSum f stored b (l.eraseIdx i) = pinSum f stored b l - pinW f stored a.2.blockId b
  | [], i, a, h => by simp at h
  | c :: l, 0, a, h => by
    simp at h
    subst h
    simp only [List.eraseIdx_cons_zero, pinSum]; omega
  | c :: l, i + 1, a, h => by
    simp at h
    simp only [List.eraseIdx_cons_succ, pinSum, pinSum_erase f stored b l i a h]; omega

/-- A live iterator. -/
structure LiveIt (f : Sparse α) (w : Box3i) (s : Sparse.DynIter) : Prop where
  ne : w.isEmpty = false
  lo : f.dw.contains w.min = true
  hi : f.dw.contains w.max = true
  at_ : w.contains s.pos = true ∧ s.ticker = (f.rx s.pos % 2 ^ f.order : Nat) ∨ s.pos = iterEnd w
  bid : s.blockId = f.blockId (f.blockCoord (f.offsetCoord s.pos))

theorem dynSetup_bid {f : Sparse α} {s s' : Sparse.DynIter} {p : V3i}
    (h : f.dynSetup s p = some s') :
    s'.blockId = f.blockId (f.blockCoord (f.offsetCoord p)) ∧ s'.pos = s.pos := by
  unfold Sparse.dynSetup at h
  simp only at h
  split at h
  · cases h; exact ⟨rfl, rfl⟩
  · split at h
    · cases h
    · split at h <;> (cases h; exact ⟨rfl, rfl⟩)

theorem live_setup {f : Sparse α} (wf : f.WF) {w : Box3i} (hw : w.isEmpty = false)
    (hlo : f.dw.contains w.min = true) (hhi : f.dw.contains w.max = true) (s : Sparse.DynIter)
    (hp : w.contains s.pos = true ∨ s.pos = iterEnd w) :
    ∃ s', f.dynSetup s s.pos = some s' ∧ LiveIt f w s' := by
  have hsub := sub_of_corners hlo hhi
  rcases hp with hp | hp
  · obtain ⟨d, hd, ha⟩ := Sparse.dynSetup_in wf (hsub _ hp) s rfl
    obtain ⟨hb, hpos⟩ := dynSetup_bid hd
    refine ⟨d, hd, hw, hlo, hhi, Or.inl ⟨by rw [hpos]; exact hp, ?_⟩, by rw [hb, hpos]⟩
    rw [ha.tick, hpos]
  · have h1 := Box3i.contains_iff.mp hlo
    have h2 := Box3i.contains_iff.mp hhi
    obtain ⟨d, hd, hpos⟩ := Sparse.dynSetup_end wf (p := s.pos) (by rw [hp]; simp only [iterEnd]; omega)
      (by rw [hp]; simp only [iterEnd]; omega) (by rw [hp]; simp only [iterEnd]; omega) s
    obtain ⟨hb, -⟩ := dynSetup_bid hd
    exact ⟨d, hd, hw, hlo, hhi, Or.inr (by rw [hpos]; exact hp), by rw [hb, hpos]⟩

theorem next_in_or_end {w : Box3i} {p : V3i} (hp : w.contains p = true) :
    w.contains (F3D.iterNext w p) = true ∨ F3D.iterNext w p = iterEnd w := by
  have hp' := Box3i.contains_iff.mp hp
  by_cases hm : p.x = w.max.x ∧ p.y = w.max.y ∧ p.z = w.max.z
  · right
    unfold F3D.iterNext iterEnd
    rw [if_pos hm.1, if_pos hm.2.1, hm.2.2]
  · left
    rw [Box3i.contains_iff]
    unfold F3D.iterNext
    split
    · split
      · simp only; omega
      · simp only; omega
    · simp only; omega

theorem live_next {f : Sparse α} (wf : f.WF) {w : Box3i} {s : Sparse.DynIter} (h : LiveIt f w s)
    (hp : w.contains s.pos = true) : ∃ s', f.dynNext w s = some s' ∧ LiveIt f w s' := by
  have hsub := sub_of_corners h.lo h.hi
  have htick : s.ticker = (f.rx s.pos % 2 ^ f.order : Nat) := by
    rcases h.at_ with hc | hc
    · exact hc.2
    · rw [hc, Box3i.contains_iff] at hp
      simp only [iterEnd] at hp
      omega
  unfold Sparse.dynNext
  simp only
  split
  · obtain ⟨s', h1, h2⟩ := live_setup wf h.ne h.lo h.hi
      { pos := F3D.iterNext w s.pos,
        ptr := if (!s.isEmptyBlock && s.activated) = true then s.ptr.inc else s.ptr,
        isEmptyBlock := s.isEmptyBlock, activated := s.activated, ticker := 0, blockId := s.blockId }
      (next_in_or_end hp)
    exact ⟨s', h1, h2⟩
  · rename_i hc
    simp only [Bool.or_eq_true, decide_eq_true_eq, not_or] at hc
    obtain ⟨h1, h2⟩ := hc
    have hstep : F3D.iterNext w s.pos = ⟨s.pos.x + 1, s.pos.y, s.pos.z⟩ := by
      unfold F3D.iterNext; rw [if_neg h1]
    have hin : w.contains ⟨s.pos.x + 1, s.pos.y, s.pos.z⟩ = true := by
      rw [Box3i.contains_iff] at hp ⊢
      simp only
      omega
    have hB : f.rx s.pos % 2 ^ f.order + 1 ≠ 2 ^ f.order := by
      intro e; apply h2; rw [htick]; omega
    obtain ⟨r1, r2, r3⟩ := Sparse.row_step (hsub _ hp) hB
    rw [hstep]
    refine ⟨_, rfl, h.ne, h.lo, h.hi, Or.inl ⟨hin, ?_⟩, ?_⟩
    · simp only
      rw [r3, htick]
      omega
    · simp only
      rw [Sparse.id_eq wf (hsub _ hin), r1, h.bid, Sparse.id_eq wf (hsub _ hp)]

theorem live_deref {f : Sparse α} {w : Box3i} {s s' : Sparse.DynIter} {v : α} (h : LiveIt f w s)
    (hd : f.dynDeref s = some (v, s')) : LiveIt f w s' ∧ s'.blockId = s.blockId := by
  unfold Sparse.dynDeref at hd
  simp only [Option.map_eq_some_iff, Prod.mk.injEq] at hd
  obtain ⟨a, -, -, hs⟩ := hd
  subst hs
  split
  · exact ⟨⟨h.ne, h.lo, h.hi, h.at_, h.bid⟩, rfl⟩
  · exact ⟨h, rfl⟩

theorem used_inv {f : Sparse α} (wf : f.WF) {stored : Nat → Bool} {refs₀ : Nat → Int} {s : St}
    (hu : Used f stored refs₀ s) :
    (∀ x ∈ s.its, LiveIt f x.1 x.2) ∧ ∀ b, s.refs b = refs₀ b + pinSum f stored b s.its := by
  induction hu with
  | start => exact ⟨fun x hx => by simp at hx, fun b => by simp [pinSum]⟩
  | step s s' op _ hok hs ih =>
    obtain ⟨hl, hr⟩ := ih
    have hnone : ∀ b, pinW f stored (-1) b = 0 := fun b =>
      pinW_zero (fun c => by have := allocatedAt_range c; omega)
    cases op with
    | first w =>
      obtain ⟨h1, h2, h3⟩ := hok
      have hmin : w.contains w.min = true := by
        rw [Box3i.isEmpty_false] at h1; rw [Box3i.contains_iff]; omega
      obtain ⟨it, e, hlive⟩ := live_setup wf h1 h2 h3 ⟨w.min, .null, false, false, 0, -1⟩ (Or.inl hmin)
      have eb : f.dynBegin w = some it := by
        unfold Sparse.dynBegin
        simp only [h1, Bool.false_eq_true, if_false]
        exact e
      simp only [IterPins.step, eb, Option.map_some, Option.some.injEq] at hs
      subst hs
      refine ⟨fun x hx => ?_, fun b => ?_⟩
      · rcases List.mem_append.1 hx with hx | hx
        · exact hl x hx
        · rw [List.mem_singleton] at hx; subst hx; exact hlive
      · simp only
        rw [setupPins_eq wf, pinSum_append, hr b, hnone b]
        simp only
        omega
    | last w =>
      obtain ⟨h1, h2, h3⟩ := hok
      obtain ⟨it, e, hlive⟩ := live_setup wf h1 h2 h3 ⟨iterEnd w, .null, false, false, 0, -1⟩ (Or.inr rfl)
      simp only [IterPins.step, e, Option.map_some, Option.some.injEq] at hs
      subst hs
      refine ⟨fun x hx => ?_, fun b => ?_⟩
      · rcases List.mem_append.1 hx with hx | hx
        · exact hl x hx
        · rw [List.mem_singleton] at hx; subst hx; exact hlive
      · simp only
        rw [setupPins_eq wf, pinSum_append, hr b, hnone b]
        simp only
        omega
    | next i =>
      obtain ⟨w, it, hi, hp⟩ := hok
      have hlive := hl _ (List.mem_of_getElem? hi)
      obtain ⟨it', e, hlive'⟩ := live_next wf hlive hp
      simp only [IterPins.step, hi, e, Option.map_some, Option.some.injEq] at hs
      subst hs
      refine ⟨fun x hx => ?_, fun b => ?_⟩
      · rcases List.mem_or_eq_of_mem_set hx with hx | hx
        · exact hl x hx
        · subst hx; exact hlive'
      · simp only
        rw [setupPins_eq wf, pinSum_set f stored b _ _ _ _ hi, hr b]
        simp only
        omega
    | deref i =>
      obtain ⟨w, it, hi, hp⟩ := hok
      have hlive := hl _ (List.mem_of_getElem? hi)
      simp only [IterPins.step, hi, Option.map_eq_some_iff] at hs
      obtain ⟨⟨v, it'⟩, e, hs⟩ := hs
      subst hs
      obtain ⟨hlive', hb⟩ := live_deref hlive e
      refine ⟨fun x hx => ?_, fun b => ?_⟩
      · rcases List.mem_or_eq_of_mem_set hx with hx | hx
        · exact hl x hx
        · subst hx; exact hlive'
      · simp only
        rw [pinSum_set f stored b _ _ _ _ hi, hr b]
        simp only [hb]
        omega
    | destroy i =>
      have hi : s.its[i]? = some s.its[i] := List.getElem?_eq_getElem hok
      simp only [IterPins.step, hi, Option.some.injEq] at hs
      subst hs
      refine ⟨fun x hx => hl x (List.mem_of_mem_eraseIdx hx), fun b => ?_⟩
      simp only
      rw [destroyPins_eq, pinSum_erase f stored b _ _ _ hi, hr b]
      omega
    | copy i => exact hok.elim
    | assign i j => exact hok.elim

theorem blocksAlong_eq {o : Nat} {lo hi : Int} (h : lo ≤ hi) :
    blocksAlong (2 ^ o) lo hi = (Sparse.bn o (hi - lo + 1).toNat : Nat) := by
  unfold blocksAlong Sparse.bn
  have hB := Sparse.two_pow_pos' o
  rw [Int.natCast_ediv]
  congr 1
  omega

theorem blockNumber_eq {f : Sparse α} (wf : f.WF) (p : V3i) :
    f.blockId (f.blockCoord (f.offsetCoord p)) = blockNumber f.dw f.order p := by
  have h := Box3i.isEmpty_false.mp wf.ne
  unfold blockNumber
  simp only
  rw [blocksAlong_eq (by omega), blocksAlong_eq (by omega)]
  unfold Sparse.blockId Sparse.blockCoord Sparse.offsetCoord
  simp only [V3i.sub_x, V3i.sub_y, V3i.sub_z, wf.bxy, wf.bx]
  unfold Box3i.nx Box3i.ny
  push_cast
  rfl

theorem allocatedAt_iff (f : Sparse α) (b : Nat) :
    allocatedAt f (b : Int) = true ↔ ∃ c, f.blocks[b]? = some c ∧ c.isAllocated = true := by
  unfold allocatedAt
  rw [Sparse.block?_nat]
  cases f.blocks[b]? <;> simp

theorem pinSum_positions {f : Sparse α} (wf : f.WF) (stored : Nat → Bool) (b : Nat) :
    ∀ l : List (Box3i × Sparse.DynIter), (∀ x ∈ l, LiveIt f x.1 x.2) →
      (InFile f stored b → pinSum f stored b l =
        (positionsIn f.dw f.order b (l.map (·.2.pos)) : Nat)) ∧
      (¬ InFile f stored b → pinSum f stored b l = 0)
  | [], _ => ⟨fun _ => rfl, fun _ => rfl⟩
  | x :: l, h => by
    obtain ⟨i1, i2⟩ := pinSum_positions wf stored b l (fun y hy => h y (List.mem_cons_of_mem _ hy))
    have hx := (h x List.mem_cons_self).bid
    rw [blockNumber_eq wf] at hx
    constructor
    · intro hf
      simp only [List.map_cons, positionsIn, pinSum, i1 hf]
      unfold pinW
      rw [hx]
      by_cases hb : blockNumber f.dw f.order x.2.pos = b
      · rw [if_pos ⟨hb, by rw [hb, allocatedAt_iff]; exact hf.1, hf.2⟩, if_pos hb]; omega
      · rw [if_neg (fun c => hb c.1), if_neg hb]; omega
    · intro hf
      simp only [pinSum, i2 hf]
      unfold pinW
      rw [if_neg]
      · rfl
      · rintro ⟨c1, c2, c3⟩
        rw [c1, allocatedAt_iff] at c2
        exact hf ⟨c2, c3⟩

/-! ## C101 -/

/-- C101: after any history of making, advancing, dereferencing and destroying iterators over a field that is
read on demand, in any order and with any number of them, the reference count of each block in the
file is what it was before plus the number of iterators that are now in the block. Counts of other
blocks have not changed. -/
theorem C101_counts [DecidableEq α] (zero : α) (f : Sparse α) (hr : SparseReachable zero f)
    (stored : Nat → Bool) (refs₀ : Nat → Int) (s : St) (hu : Used f stored refs₀ s) (b : Nat) :
    (InFile f stored b →
      s.refs b = refs₀ b + (positionsIn f.dw f.order b (s.its.map (·.2.pos)) : Nat)) ∧
    (¬ InFile f stored b → s.refs b = refs₀ b) := by
  obtain ⟨m, r⟩ := reachable_refines hr
  have wf := r.wf
  obtain ⟨hl, hc⟩ := used_inv wf hu
  obtain ⟨h1, h2⟩ := pinSum_positions wf stored b s.its hl
  exact ⟨fun h => by rw [hc b, h1 h], fun h => by rw [hc b, h2 h]; omega⟩

theorem positionsIn_pos {w : Box3i} {o b : Nat} {p : V3i} (hb : blockNumber w o p = b) :
    ∀ l : List V3i, p ∈ l → 1 ≤ positionsIn w o b l
  | [], h => by simp at h
  | q :: l, h => by
    unfold positionsIn
    rcases List.mem_cons.1 h with h | h
    · subst h; rw [if_pos hb]; omega
    · have := positionsIn_pos hb l h; omega

/-- C101: so the block of a living iterator is pinned, whatever other iterators were made and destroyed
in the meantime; and when all iterators are gone, all counts are what they were. -/
theorem C101_pinned [DecidableEq α] (zero : α) (f : Sparse α) (hr : SparseReachable zero f)
    (stored : Nat → Bool) (refs₀ : Nat → Int) (h0 : ∀ b, 0 ≤ refs₀ b) (s : St)
    (hu : Used f stored refs₀ s) :
    (∀ x ∈ s.its, ∀ b : Nat, blockNumber f.dw f.order x.2.pos = b → InFile f stored b → 0 < s.refs b) ∧
    (s.its = [] → s.refs = refs₀) := by
  constructor
  · intro x hx b hb hf
    rw [(C101_counts zero f hr stored refs₀ s hu b).1 hf]
    have := positionsIn_pos hb (s.its.map (·.2.pos)) (List.mem_map_of_mem hx)
    have := h0 b
    omega
  · intro he
    funext b
    obtain ⟨h1, h2⟩ := C101_counts zero f hr stored refs₀ s hu b
    by_cases hf : InFile f stored b
    · rw [h1 hf, he]; simp [positionsIn]
    · exact h2 hf

/-- C101: making, advancing and destroying iterators is always defined. -/
theorem C101_defined [DecidableEq α] (zero : α) (f : Sparse α) (hr : SparseReachable zero f)
    (stored : Nat → Bool) (refs₀ : Nat → Int) (s : St) (hu : Used f stored refs₀ s) (op : Op)
    (hok : UsesWell f s op) (hd : ∀ i, op ≠ .deref i) :
    ∃ s', IterPins.step f stored s op = some s' ∧ Used f stored refs₀ s' := by
  obtain ⟨m, r⟩ := reachable_refines hr
  have wf := r.wf
  obtain ⟨hl, -⟩ := used_inv wf hu
  have : ∃ s', IterPins.step f stored s op = some s' := by
    cases op with
    | first w =>
      obtain ⟨h1, h2, h3⟩ := hok
      have hmin : w.contains w.min = true := by
        rw [Box3i.isEmpty_false] at h1; rw [Box3i.contains_iff]; omega
      obtain ⟨it, e, -⟩ := live_setup wf h1 h2 h3 ⟨w.min, .null, false, false, 0, -1⟩ (Or.inl hmin)
      have eb : f.dynBegin w = some it := by
        unfold Sparse.dynBegin
        simp only [h1, Bool.false_eq_true, if_false]
        exact e
      exact ⟨_, by simp only [IterPins.step, eb, Option.map_some]; rfl⟩
    | last w =>
      obtain ⟨h1, h2, h3⟩ := hok
      obtain ⟨it, e, -⟩ := live_setup wf h1 h2 h3 ⟨iterEnd w, .null, false, false, 0, -1⟩ (Or.inr rfl)
      exact ⟨_, by simp only [IterPins.step, e, Option.map_some]; rfl⟩
    | next i =>
      obtain ⟨w, it, hi, hp⟩ := hok
      obtain ⟨it', e, -⟩ := live_next wf (hl _ (List.mem_of_getElem? hi)) hp
      exact ⟨_, by simp only [IterPins.step, hi, e, Option.map_some]; rfl⟩
    | deref i => exact absurd rfl (hd i)
    | destroy i =>
      have hi : s.its[i]? = some s.its[i] := List.getElem?_eq_getElem hok
      exact ⟨_, by simp only [IterPins.step, hi]; rfl⟩
    | copy i => exact hok.elim
    | assign i j => exact hok.elim
  obtain ⟨s', hs⟩ := this
  exact ⟨s', hs, .step s s' op hu hok hs⟩

/-- C101 does not extend to copies. When an iterator is copied and the copy destroyed, the count of its
block is one lower than before, so the block is no longer pinned by the original; when the original
is destroyed too, the count is one too low for good. -/
theorem C101_copy_unpins [DecidableEq α] (zero : α) (f : Sparse α) (hr : SparseReachable zero f)
    (stored : Nat → Bool) (refs₀ : Nat → Int) (s : St) (hu : Used f stored refs₀ s)
    (i : Nat) (x : Box3i × Sparse.DynIter) (hi : s.its[i]? = some x) (b : Nat)
    (hb : blockNumber f.dw f.order x.2.pos = b) (hf : InFile f stored b) :
    ∃ s', run f stored s [.copy i, .destroy s.its.length] = some s' ∧ s'.its = s.its ∧
      s'.refs b = s.refs b - 1 ∧
      (s.its = [x] → i = 0 → ∃ t, run f stored s' [.destroy 0] = some t ∧ t.its = [] ∧
        t.refs b = refs₀ b - 1) := by
  obtain ⟨m, r⟩ := reachable_refines hr
  have wf := r.wf
  obtain ⟨hl, hc⟩ := used_inv wf hu
  have hbid := (hl x (List.mem_of_getElem? hi)).bid
  rw [blockNumber_eq wf, hb] at hbid
  have hw : pinW f stored x.2.blockId b = 1 := by
    unfold pinW
    rw [if_pos ⟨hbid, by rw [hbid, allocatedAt_iff]; exact hf.1, hf.2⟩]
  have hlast : (s.its ++ [x])[s.its.length]? = some x := by simp
  refine ⟨⟨destroyPins f stored s.refs x.2.blockId, s.its⟩, ?_, rfl, ?_, ?_⟩
  · simp only [run, IterPins.step, hi, Option.bind_some, hlast, Option.some.injEq]
    congr 1
    simp [List.eraseIdx_append_of_length_le]
  · simp only
    rw [destroyPins_eq, hw]
  · intro h1 _
    refine ⟨⟨destroyPins f stored (destroyPins f stored s.refs x.2.blockId) x.2.blockId, []⟩, ?_, rfl, ?_⟩
    · simp [run, IterPins.step, h1]
    · simp only
      rw [destroyPins_eq, destroyPins_eq, hw, hc b, h1]
      simp only [pinSum, hw]
      omega

/-- A field of two blocks of two voxels a side; the block with voxels 0 and 1 has data. -/
def pinField : Option (Sparse Int) :=
  sparseRun 0 ((Sparse.empty 0).setSize 0 ⟨⟨0, 0, 0⟩, ⟨2, 0, 0⟩⟩ ⟨⟨0, 0, 0⟩, ⟨2, 0, 0⟩⟩)
    [.setBlockOrder 1, .write ⟨1, 0, 0⟩ 7]

/-- Two iterators over it, one of them advanced by one voxel and the other by two: one pin. -/
example : ∃ f s, pinField = some f ∧ SparseReachable 0 f ∧ InFile f (fun b => b == 0) 0 ∧
    ¬ InFile f (fun b => b == 0) 1 ∧
    run f (fun b => b == 0) ⟨fun _ => 0, []⟩
      [.first f.dw, .first f.dw, .next 0, .next 1, .deref 0, .next 1] = some s ∧
    s.its.length = 2 ∧ s.refs 0 = 1 ∧ s.refs 1 = 0 := by
  refine ⟨_, _, rfl, ⟨⟨⟨0, 0, 0⟩, ⟨2, 0, 0⟩⟩, ⟨⟨0, 0, 0⟩, ⟨2, 0, 0⟩⟩,
    [.setBlockOrder 1, .write ⟨1, 0, 0⟩ 7], by unfold SparseWindow; decide, ⟨trivial, rfl, trivial⟩, rfl⟩,
    ⟨⟨_, rfl, by decide⟩, by decide⟩, fun h => absurd h.2 (by decide), rfl, by decide, by decide, by decide⟩

/-- An iterator that was made and advanced: the hypotheses of the theorems are met. -/
example : ∃ f s, pinField = some f ∧ Used f (fun b => b == 0) (fun _ => 0) s ∧
    s.its.map (fun x => blockNumber f.dw f.order x.2.pos) = [0] ∧ s.refs 0 = 1 := by
  refine ⟨_, _, rfl, .step _ _ (.next 0) (.step _ _ (.first ⟨⟨0, 0, 0⟩, ⟨2, 0, 0⟩⟩) .start ?_ rfl) ?_ rfl, ?_, ?_⟩
  · exact ⟨by decide, by decide, by decide⟩
  · exact ⟨_, _, rfl, by decide⟩
  · decide
  · decide

end F3D.Props

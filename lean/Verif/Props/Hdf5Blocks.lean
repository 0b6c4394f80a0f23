import Verif.Model.Hdf5Blocks

/-!
# Reading HDF5 blocks in passes (C41)
-/

namespace F3D.Props
open F3D.Hdf5Blocks

/-- How many allocated blocks come before block `i`: the row of block `i` in the file. -/
def rowOf (alloc : List Bool) (i : Nat) : Nat := (alloc.take i).count true

/-- What the field must hold afterwards: in allocated blocks their own row, elsewhere what was there. -/
def expected {δ : Type} (alloc : List Bool) (rows old : List δ) : List δ :=
  old.mapIdx fun i o => if alloc[i]? = some true then (rows[rowOf alloc i]?).getD o else o

/-- State of the outer loop: the blocks before `p` are done, the others untouched. -/
def upTo {δ : Type} (alloc : List Bool) (rows old : List δ) (p : Nat) : List δ :=
  old.mapIdx fun i o => if i < p ∧ alloc[i]? = some true then (rows[rowOf alloc i]?).getD o else o

/-- The blocks from `p` on, numbered. -/
def from' (alloc : List Bool) (p : Nat) : List (Nat × Bool) := (numbered alloc).drop p

theorem from_nil (alloc : List Bool) (p : Nat) (h : alloc.length ≤ p) : from' alloc p = [] := by
  simp [from', numbered, h]

theorem from_cons (alloc : List Bool) (p : Nat) (h : p < alloc.length) :
    from' alloc p = (p, alloc[p]) :: from' alloc (p + 1) := by
  unfold from'
  rw [List.drop_eq_getElem_cons (by simpa [numbered] using h)]
  simp [numbered]

theorem rowOf_succ (alloc : List Bool) (p : Nat) (h : p < alloc.length) :
    rowOf alloc (p + 1) = rowOf alloc p + if alloc[p] then 1 else 0 := by
  unfold rowOf
  rw [List.take_add_one, List.count_append, List.getElem?_eq_getElem h]
  rcases Bool.eq_false_or_eq_true alloc[p] with h | h <;> simp [h]

theorem rowOf_le (alloc : List Bool) (p : Nat) : rowOf alloc p ≤ alloc.count true :=
  (List.take_sublist _ _).count_le _

theorem upTo_succ {δ : Type} (alloc : List Bool) (rows old : List δ) (p : Nat) (h : p < alloc.length)
    (hl : old.length = alloc.length) :
    upTo alloc rows old (p + 1) =
      if alloc[p] then putRow rows (rowOf alloc p) p (upTo alloc rows old p)
      else upTo alloc rows old p := by
  apply List.ext_getElem?
  intro i
  have base : ∀ q, (upTo alloc rows old q)[i]? =
      (old[i]?).map fun o => if i < q ∧ alloc[i]? = some true then (rows[rowOf alloc i]?).getD o else o := by
    intro q; rw [upTo, List.getElem?_mapIdx]
  have hlen : (upTo alloc rows old p).length = alloc.length := by simp [upTo, hl]
  by_cases hi : i = p
  · subst hi
    have ho : i < old.length := by omega
    rw [base, List.getElem?_eq_getElem ho, List.getElem?_eq_getElem h]
    rcases Bool.eq_false_or_eq_true alloc[i] with ha | ha
    · rw [ha]
      unfold putRow
      cases hr : rows[rowOf alloc i]? with
      | none => simp [base, List.getElem?_eq_getElem ho]
      | some r =>
        simp [hlen, h]
    · rw [ha]
      simp [base, List.getElem?_eq_getElem ho]
  · have hne : (i < p + 1 ∧ alloc[i]? = some true) ↔ (i < p ∧ alloc[i]? = some true) := by
      constructor <;> rintro ⟨a, b⟩ <;> exact ⟨by omega, b⟩
    rw [base]
    simp only [hne]
    rw [← base p]
    split
    · unfold putRow
      split
      · rw [List.getElem?_set_ne (by omega)]
      · rfl
    · rfl

/-- One pass: what it collects is what lies between two positions, and delivering it moves the state from the first
to the second. -/
theorem collect_spec {δ : Type} (max size : Nat) (alloc : List Bool) (rows old : List δ)
    (hl : old.length = alloc.length) : ∀ (n p mem : Nat), alloc.length - p = n → p ≤ alloc.length →
    ∃ q, p ≤ q ∧ q ≤ alloc.length ∧ (collect max size (from' alloc p) mem).2 = from' alloc q ∧
      rowOf alloc q = rowOf alloc p + (collect max size (from' alloc p) mem).1.length ∧
      deliver rows (rowOf alloc p) (collect max size (from' alloc p) mem).1 (upTo alloc rows old p) =
        upTo alloc rows old q ∧
      ((collect max size (from' alloc p) mem).1 = [] → mem < max → q = alloc.length) := by
  intro n
  induction n with
  | zero =>
    intro p mem hn hp
    rw [from_nil alloc p (by omega)]
    exact ⟨p, Nat.le_refl _, hp, by rw [collect, from_nil alloc p (by omega)], by simp [collect], by simp [collect, deliver],
      fun _ _ => by omega⟩
  | succ n ih =>
    intro p mem hn hp
    have hlt : p < alloc.length := by omega
    rw [from_cons alloc p hlt]
    unfold collect
    by_cases hm : mem < max
    · rw [if_pos hm]
      rcases Bool.eq_false_or_eq_true alloc[p] with ha | ha
      · rw [if_pos ha]
        obtain ⟨q, h1, h2, h3, h4, h5, h6⟩ := ih (p + 1) (mem + size) (by omega) hlt
        have hr := rowOf_succ alloc p hlt
        rw [ha, if_pos rfl] at hr
        have hu := upTo_succ alloc rows old p hlt hl
        rw [ha, if_pos rfl] at hu
        refine ⟨q, by omega, h2, h3, ?_, ?_, ?_⟩
        · simp only [List.length_cons]; omega
        · simp only [deliver]
          rw [← hu, ← hr, h5]
        · intro h; simp at h
      · rw [if_neg (by simp [ha])]
        obtain ⟨q, h1, h2, h3, h4, h5, h6⟩ := ih (p + 1) mem (by omega) hlt
        have hr := rowOf_succ alloc p hlt
        rw [ha] at hr
        have hu := upTo_succ alloc rows old p hlt hl
        rw [ha] at hu
        simp only [Bool.false_eq_true, if_false, Nat.add_zero] at hr hu
        refine ⟨q, by omega, h2, h3, by omega, ?_, h6⟩
        rw [← hr, ← hu, h5]
    · rw [if_neg hm]
      exact ⟨p, Nat.le_refl _, hp, (from_cons alloc p hlt).symm, by simp, by simp [deliver], fun _ h => absurd h hm⟩

theorem passes_spec {δ : Type} (max size : Nat) (hmax : 0 < max) (alloc : List Bool) (rows old : List δ)
    (hl : old.length = alloc.length) (hr : alloc.count true ≤ rows.length) : ∀ (n p : Nat), alloc.length - p ≤ n →
    p ≤ alloc.length →
    passes max size rows (from' alloc p) (rowOf alloc p) (upTo alloc rows old p) =
      some (upTo alloc rows old alloc.length) := by
  intro n
  induction n with
  | zero =>
    intro p hn hp
    unfold passes
    have : p = alloc.length := by omega
    subst this
    rw [dif_pos (by rw [from_nil _ _ (Nat.le_refl _)]; rfl)]
  | succ n ih =>
    intro p hn hp
    obtain ⟨q, h1, h2, h3, h4, h5, h6⟩ := collect_spec max size alloc rows old hl _ p 0 rfl hp
    unfold passes
    by_cases he : (collect max size (from' alloc p) 0).1 = []
    · rw [dif_pos he]
      have hq := h6 he hmax
      rw [he] at h5
      rw [deliver, hq] at h5
      rw [h5]
    · rw [dif_neg he]
      have h7 := rowOf_le alloc q
      rw [readBlockList, if_pos (by omega), h5, h3, ← h4]
      have h8 := collect_length max size (from' alloc p) 0
      have h9 : 0 < (collect max size (from' alloc p) 0).1.length := List.length_pos_iff.mpr he
      have h10 : (from' alloc p).length = alloc.length - p := by simp [from', numbered]
      have h11 : (from' alloc q).length = alloc.length - q := by simp [from', numbered]
      rw [h3, h10, h11] at h8
      exact ih q (by omega) h2

/-- **Chunked reading is exact**: whatever the memory limit per pass (at least one byte) and the size of a block, every
allocated block gets its own row, no row past the end is asked for, and the other blocks are not touched. -/
theorem C41_every_block_gets_its_row {δ : Type} (max size : Nat) (hmax : 0 < max) (alloc : List Bool)
    (rows old : List δ) (hl : old.length = alloc.length) (hr : rows.length = alloc.count true) :
    readAllBlocks max size (alloc.count true) rows alloc old = some (expected alloc rows old) := by
  unfold readAllBlocks
  have hend : upTo alloc rows old alloc.length = expected alloc rows old := by
    apply List.ext_getElem?
    intro i
    rw [upTo, expected, List.getElem?_mapIdx, List.getElem?_mapIdx]
    by_cases hi : i < alloc.length
    · simp [hi]
    · rw [List.getElem?_eq_none (by omega : old.length ≤ i)]; rfl
  have hstart : upTo alloc rows old 0 = old := by
    apply List.ext_getElem?
    intro i
    rw [upTo, List.getElem?_mapIdx]
    simp
  by_cases h0 : 0 < alloc.count true
  · rw [if_pos h0, if_pos hr]
    have := passes_spec max size hmax alloc rows old hl (by omega) _ 0 (Nat.le_refl _) (Nat.zero_le _)
    rw [hstart, hend] at this
    exact this
  · rw [if_neg h0]
    congr 1
    apply List.ext_getElem?
    intro i
    rw [expected, List.getElem?_mapIdx]
    have : ∀ i : Nat, alloc[i]? ≠ some true := by
      intro i h
      have := List.count_pos_iff.mpr (List.mem_of_getElem? h)
      omega
    simp [this]

/-- In `expected` every allocated block really has a row, and different blocks have different rows. -/
theorem C41_rows_are_distinct (alloc : List Bool) (i j : Nat) (hi : alloc[i]? = some true) (hj : alloc[j]? = some true)
    (hij : i < j) : rowOf alloc i < rowOf alloc j ∧ rowOf alloc j < alloc.count true := by
  have step : ∀ k : Nat, alloc[k]? = some true → rowOf alloc (k + 1) = rowOf alloc k + 1 := by
    intro k hk
    obtain ⟨h1, h2⟩ := List.getElem?_eq_some_iff.mp hk
    rw [rowOf_succ alloc k h1, h2, if_pos rfl]
  have mono : ∀ a b, a ≤ b → rowOf alloc a ≤ rowOf alloc b := by
    intro a b h
    unfold rowOf
    apply List.Sublist.count_le
    have : alloc.take a = (alloc.take b).take a := by rw [List.take_take, Nat.min_eq_left h]
    rw [this]
    exact List.take_sublist _ _
  have h1 := mono (i + 1) j hij
  have h2 := step i hi
  have h3 := rowOf_le alloc (j + 1)
  have h4 := step j hj
  omega

/-- **Memory**: a pass goes over the limit by less than one block. -/
theorem C41_memory_per_pass (max size : Nat) (hs : 0 < size) : ∀ (rest : List (Nat × Bool)) (mem : Nat), mem < max + size →
    mem + (collect max size rest mem).1.length * size < max + size
  | [], mem, h => by simpa [collect] using h
  | (i, a) :: rest, mem, h => by
    unfold collect
    split
    · split
      · have := C41_memory_per_pass max size hs rest (mem + size) (by omega)
        simp only [List.length_cons, Nat.succ_mul]; omega
      · exact C41_memory_per_pass max size hs rest mem h
    · simpa using h

/-- With a limit of zero nothing is read: the limit must be positive. -/
theorem C41_zero_limit_reads_nothing {δ : Type} (size : Nat) (rows old : List δ) (alloc : List Bool) :
    passes 0 size rows (numbered alloc) 0 old = some old := by
  unfold passes
  rw [dif_pos]
  cases alloc with
  | nil => rfl
  | cons a as => simp [numbered, collect]

/-- Seven blocks, two bytes each, three bytes per pass: passes of two, two and one block. -/
example : readAllBlocks 3 2 5 [10, 11, 12, 13, 14] [true, false, true, true, false, true, true] [0, 1, 2, 3, 4, 5, 6] =
    some [10, 1, 11, 12, 4, 13, 14] := by
  have := C41_every_block_gets_its_row (δ := Nat) 3 2 (by decide) [true, false, true, true, false, true, true]
    [10, 11, 12, 13, 14] [0, 1, 2, 3, 4, 5, 6] rfl rfl
  exact this.trans (by decide)

example : collect 3 2 (numbered [true, false, true, true, false, true, true]) 0 = ([0, 2], [(3, true), (4, false), (5, true), (6, true)]) := by
  decide

end F3D.Props

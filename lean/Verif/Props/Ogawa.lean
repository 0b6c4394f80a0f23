import Verif.Proofs.OgawaRun

/-!
# C30-C34: the Ogawa container

`Doc`, `treeOf` and `explore` are in `Verif.Spec.Ogawa`. `Writer.init.run ops` is the writer after the calls
`ops`; `w.closed` says the archive has been closed. `2 ^ 63` bounds the file size, as the format uses the
top bit of a position.
-/

namespace F3D.Props
open F3D.Ogawa

/-! ## C30 -/

/-- A closed archive is read back as the document its calls describe, at every depth, in full and in light
mode. Calls may come in any order, on any groups; every group is frozen by then. -/
theorem C30_archive_reads_back (ops : List Op) (hne : ∀ g, Op.addData g [] ∉ ops)
    (hc : (Writer.init.run ops).closed = true) (hL : (Writer.init.run ops).file.length < 2 ^ 63) :
    (Doc.init.run ops).allFrozen = true ∧
    ∃ root, openArchive (Writer.init.run ops).file = .archive true root ∧
      ∀ n light, explore (Writer.init.run ops).file light n root = some (treeOf (Doc.init.run ops) n 0) := by
  have h := good_run ops hne good_init
  obtain ⟨root, h1, -, h2⟩ := good_read h hL
  have hall : (Doc.init.run ops).allFrozen = true := by
    obtain ⟨⟨rs, hI, -⟩, hcl⟩ := h
    exact (allFrozen_iff hI).2 (hcl hc)
  have h0 : (Doc.init.run ops).frozen 0 = true := by
    obtain ⟨⟨rs, hI, -⟩, hcl⟩ := h
    obtain ⟨o, ho, -⟩ := hI.root
    rw [hI.fro 0 o ho]; exact hcl hc 0 o ho
  rw [hc] at h1
  refine ⟨hall, root, h1, ?_⟩
  intro n light
  have := h2 n
  rw [h0] at this
  cases light
  · exact this.1
  · exact this.2

/-- The same without closing: as soon as the root group is frozen its tree can be read, with groups that
are not frozen yet read as empty; the archive is not flagged as finished. -/
theorem C30_unclosed_archive (ops : List Op) (hne : ∀ g, Op.addData g [] ∉ ops)
    (hL : (Writer.init.run ops).file.length < 2 ^ 63) (h0 : (Doc.init.run ops).frozen 0 = true) :
    ∃ root, openArchive (Writer.init.run ops).file = .archive (Writer.init.run ops).closed root ∧
      ∀ n light, explore (Writer.init.run ops).file light n root = some (treeOf (Doc.init.run ops) n 0) := by
  obtain ⟨root, h1, -, h2⟩ := good_read (good_run ops hne good_init) hL
  refine ⟨root, h1, ?_⟩
  intro n light
  have := h2 n
  rw [h0] at this
  cases light
  · exact this.1
  · exact this.2

/-- Zero-length data is the same as two calls of `addEmptyData`, so the above covers every program. -/
theorem C30_zero_length_data (w : Writer) (g : Nat) :
    w.step (.addData g []) = (w.step (.addEmptyData g)).step (.addEmptyData g) := by
  simp only [Writer.step, Writer.addData, Writer.addEmptyData]
  by_cases h : w.isOpen g = true
  · have h2 : (w.pushKid g emptyData).isOpen g = true := by
      obtain ⟨o, h1, h2⟩ := (isOpen_iff w g).1 h
      exact (isOpen_iff _ g).2 ⟨_, getElem?_push_of emptyData h1, h2⟩
    simp [h, h2]
  · simp [h]

/-! ### Whole trees -/

/-- The calls that write a list of children into group `g`, the next new group being number `next`; also
the number after the last group created. Groups are frozen as their destructor runs, right after their
children. -/
def writeKids : List Tree → Nat → Nat → List Op × Nat
  | [], _, next => ([], next)
  | .data bs :: ts, g, next =>
    let r := writeKids ts g next
    (.addData g bs :: r.1, r.2)
  | .group ks :: ts, g, next =>
    let r1 := writeKids ks next (next + 1)
    let r2 := writeKids ts g r1.2
    (.addGroup g :: (r1.1 ++ .freeze next :: r2.1), r2.2)

/-- Writing a whole archive. -/
def writeTree (kids : List Tree) : List Op := (writeKids kids 0 1).1 ++ [.freeze 0, .close]

/-- No zero-length data. -/
def noEmptyData : List Tree → Bool
  | [] => true
  | .data bs :: ts => !bs.isEmpty && noEmptyData ts
  | .group ks :: ts => noEmptyData ks && noEmptyData ts

/-- A tree with nothing below level `n`. -/
def cut : Nat → Tree → Tree
  | _, .data bs => .data bs
  | 0, .group _ => .group []
  | n + 1, .group ks => .group (ks.map (cut n))

/-- Number of levels of groups. -/
def levels : List Tree → Nat
  | [] => 1
  | .data _ :: ts => levels ts
  | .group ks :: ts => max (levels ks + 1) (levels ts)

/-- Items of a document show a list of trees. -/
def Shows (d : Doc) : List Item → List Tree → Prop
  | [], [] => True
  | .data bs :: its, .data bs' :: ts => bs = bs' ∧ Shows d its ts
  | .group h :: its, .group ks :: ts => d.frozen h = true ∧ Shows d (d.items h) ks ∧ Shows d its ts
  | _, _ => False
termination_by _ ts => sizeOf ts

theorem Shows.nil (d : Doc) : Shows d [] [] := by rw [Shows]; trivial

theorem Shows.mono {d d' : Doc} (hf : ∀ j, d.frozen j = true → d'.frozen j = true ∧ d'.items j = d.items j) :
    ∀ (ts : List Tree) (its : List Item), Shows d its ts → Shows d' its ts
  | [], [], _ => Shows.nil d'
  | [], _ :: _, h => by rw [Shows] at h <;> simp_all
  | .data bs :: ts, its, h => by
    match its with
    | [] => rw [Shows] at h <;> simp_all
    | .data bs' :: its =>
      rw [Shows] at h ⊢
      exact ⟨h.1, Shows.mono hf ts its h.2⟩
    | .emptyData :: its => rw [Shows] at h <;> simp_all
    | .emptyGroup :: its => rw [Shows] at h <;> simp_all
    | .group k :: its => rw [Shows] at h <;> simp_all
  | .group ks :: ts, its, h => by
    match its with
    | [] => rw [Shows] at h <;> simp_all
    | .data bs' :: its => rw [Shows] at h <;> simp_all
    | .emptyData :: its => rw [Shows] at h <;> simp_all
    | .emptyGroup :: its => rw [Shows] at h <;> simp_all
    | .group k :: its =>
      rw [Shows] at h ⊢
      obtain ⟨a, b, c⟩ := h
      obtain ⟨a', b'⟩ := hf k a
      exact ⟨a', by rw [b']; exact Shows.mono hf ks _ b, Shows.mono hf ts its c⟩

theorem run_append (d : Doc) (a b : List Op) : d.run (a ++ b) = (d.run a).run b := by simp [Doc.run]

theorem run_cons (d : Doc) (a : Op) (b : List Op) : d.run (a :: b) = (d.step a).run b := rfl

theorem open_of_frozen {d d' : Doc} {g : Nat} (hl : d.groups.length ≤ d'.groups.length) (ho : d.isOpen g = true)
    (hf : d'.frozen g = d.frozen g) : d'.isOpen g = true := by
  obtain ⟨a, b⟩ := open_not_frozen ho
  rw [a] at hf
  have hlt : g < d'.groups.length := by omega
  simp only [Doc.frozen, List.getElem?_eq_getElem hlt, Option.map_some, Option.getD_some] at hf
  simp [Doc.isOpen, List.getElem?_eq_getElem hlt, hf]

/-- The effect of writing children. -/
theorem writeKids_run : ∀ (ts : List Tree) (g next : Nat) (d : Doc), d.groups.length = next → d.isOpen g = true →
    (d.run (writeKids ts g next).1).groups.length = (writeKids ts g next).2 ∧ next ≤ (writeKids ts g next).2 ∧
    (∃ its, (d.run (writeKids ts g next).1).items g = d.items g ++ its ∧ Shows (d.run (writeKids ts g next).1) its ts) ∧
    (∀ j, j < next → j ≠ g → (d.run (writeKids ts g next).1).items j = d.items j) ∧
    (∀ j, j < next → (d.run (writeKids ts g next).1).frozen j = d.frozen j) ∧
    (∀ j, next ≤ j → j < (writeKids ts g next).2 → (d.run (writeKids ts g next).1).frozen j = true)
  | [], g, next, d, hn, ho => by
    simp only [writeKids]
    exact ⟨hn, Nat.le_refl _, ⟨[], by simp [Doc.run], Shows.nil _⟩, fun _ _ _ => rfl, fun _ _ => rfl, fun j a b => by omega⟩
  | .data bs :: ts, g, next, d, hn, ho => by
    obtain ⟨hfg, hgl⟩ := open_not_frozen ho
    simp only [writeKids, run_cons]
    have hs : d.step (.addData g bs) = d.push g (.data bs) := by simp [Doc.step, ho]
    have hl : (d.step (.addData g bs)).groups.length = next := by rw [hs]; simp [Doc.push, hn]
    have ho' : (d.step (.addData g bs)).isOpen g = true :=
      open_of_frozen (by rw [hl]; omega) ho (by rw [hs, frozen_push])
    obtain ⟨h1, h2, ⟨its, h3, h4⟩, h5, h6, h7⟩ := writeKids_run ts g next (d.step (.addData g bs)) hl ho'
    refine ⟨h1, h2, ⟨.data bs :: its, ?_, ?_⟩, ?_, ?_, h7⟩
    · rw [h3, hs, items_push _ _ _ _ hgl, if_pos rfl]; simp
    · rw [Shows]; exact ⟨rfl, h4⟩
    · intro j a b; rw [h5 j a b, hs, items_push _ _ _ _ hgl, if_neg b]
    · intro j a; rw [h6 j a, hs, frozen_push]
  | .group ks :: ts, g, next, d, hn, ho => by
    obtain ⟨hfg, hgl⟩ := open_not_frozen ho
    have hgn : g < next := by omega
    simp only [writeKids, run_cons, run_append]
    have hs : d.step (.addGroup g) = ⟨(d.push g (.group next)).groups ++ [([], false)]⟩ := by simp [Doc.step, ho, hn]
    obtain ⟨ef, ei⟩ := newGroup_doc d g (.group next) hgl
    rw [← hs] at ef ei
    generalize hd1 : d.step (.addGroup g) = d1 at *
    have hl1 : d1.groups.length = next + 1 := by rw [hs]; simp [Doc.push, hn]
    have hnew : d1.items next = [] := by
      rw [ei, items_push _ _ _ _ hgl, if_neg (by omega), items_of_ge d next (by omega)]
    have ho1 : d1.isOpen next = true := by
      rw [hs]; simp [Doc.isOpen, Doc.push, ← hn]
    -- the inside of the new group
    obtain ⟨a1, a2, ⟨its1, a3, a4⟩, a5, a6, a7⟩ := writeKids_run ks next (next + 1) d1 hl1 ho1
    generalize hr1 : writeKids ks next (next + 1) = r1 at *
    generalize hd2 : d1.run r1.1 = d2 at *
    have hn2 : next < d2.groups.length := by omega
    have ef3 := fun j => frozen_freeze d2 next j hn2
    have ei3 := items_freeze d2 next
    generalize hd3 : d2.step (.freeze next) = d3 at *
    have hl3 : d3.groups.length = r1.2 := by rw [← hd3]; simp [Doc.step, a1]
    have hg3 : d3.frozen g = d.frozen g := by
      rw [ef3, if_neg (by omega), a6 g (by omega), ef]
    have ho3 : d3.isOpen g = true := open_of_frozen (by rw [hl3]; omega) ho hg3
    obtain ⟨b1, b2, ⟨its2, b3, b4⟩, b5, b6, b7⟩ := writeKids_run ts g r1.2 d3 hl3 ho3
    generalize hr2 : writeKids ts g r1.2 = r2 at *
    generalize hd4 : d3.run r2.1 = d4 at *
    have mono23 : ∀ j, d2.frozen j = true → d3.frozen j = true ∧ d3.items j = d2.items j := by
      intro j hj
      refine ⟨?_, ei3 j⟩
      rw [ef3]; split
      · rfl
      · exact hj
    have mono34 : ∀ j, d3.frozen j = true → d4.frozen j = true ∧ d4.items j = d3.items j := by
      intro j hj
      have hlt : j < r1.2 := by rw [← hl3]; exact frozen_lt hj
      have hjg : j ≠ g := by intro e; rw [e, hg3, hfg] at hj; simp at hj
      exact ⟨by rw [b6 j hlt]; exact hj, b5 j hlt hjg⟩
    have hfn : d3.frozen next = true := by rw [ef3, if_pos rfl]
    refine ⟨b1, by omega, ⟨.group next :: its2, ?_, ?_⟩, ?_, ?_, ?_⟩
    · rw [b3, ei3, a5 g (by omega) (by omega), ei, items_push _ _ _ _ hgl, if_pos rfl]; simp
    · rw [Shows]
      refine ⟨(mono34 next hfn).1, ?_, b4⟩
      rw [(mono34 next hfn).2, ei3, a3, hnew, List.nil_append]
      exact Shows.mono mono34 _ _ (Shows.mono mono23 _ _ a4)
    · intro j hj hjg
      rw [b5 j (by omega) hjg, ei3, a5 j (by omega) (by omega), ei, items_push _ _ _ _ hgl, if_neg hjg]
    · intro j hj
      rw [b6 j (by omega), ef3, if_neg (by omega), a6 j (by omega), ef]
    · intro j h1 h2
      by_cases hj : j < r1.2
      · rw [b6 j hj, ef3]
        split
        · rfl
        · exact a7 j (by omega) hj
      · exact b7 j (by omega) h2

/-- The tree the reader sees of items that show `ts`. -/
theorem shows_tree {d : Doc} : ∀ (ts : List Tree) (its : List Item) (n : Nat), Shows d its ts →
    (its.map fun it => match it with
      | .data bs => Tree.data bs
      | .emptyData => .data []
      | .emptyGroup => .group []
      | .group h => if d.frozen h then treeOf d n h else .group []) = ts.map (cut n)
  | [], [], _, _ => rfl
  | [], _ :: _, _, h => by rw [Shows] at h <;> simp_all
  | .data bs :: ts, its, n, h => by
    match its with
    | [] => rw [Shows] at h <;> simp_all
    | .data bs' :: its =>
      rw [Shows] at h
      simp only [List.map_cons, shows_tree ts its n h.2, h.1]
      cases n <;> simp [cut]
    | .emptyData :: its => rw [Shows] at h <;> simp_all
    | .emptyGroup :: its => rw [Shows] at h <;> simp_all
    | .group k :: its => rw [Shows] at h <;> simp_all
  | .group ks :: ts, its, n, h => by
    match its with
    | [] => rw [Shows] at h <;> simp_all
    | .data bs' :: its => rw [Shows] at h <;> simp_all
    | .emptyData :: its => rw [Shows] at h <;> simp_all
    | .emptyGroup :: its => rw [Shows] at h <;> simp_all
    | .group k :: its =>
      rw [Shows] at h
      obtain ⟨a, b, c⟩ := h
      simp only [List.map_cons, shows_tree ts its n c, a, if_true]
      congr 1
      cases n with
      | zero => simp [treeOf, cut]
      | succ n =>
        simp only [treeOf, cut]
        exact congrArg Tree.group (shows_tree ks _ n b)

theorem writeKids_noEmpty : ∀ (ts : List Tree) (g next : Nat), noEmptyData ts = true →
    ∀ g', Op.addData g' [] ∉ (writeKids ts g next).1
  | [], g, next, _, g' => by simp [writeKids]
  | .data bs :: ts, g, next, h, g' => by
    simp only [noEmptyData, Bool.and_eq_true, Bool.not_eq_true'] at h
    simp only [writeKids, List.mem_cons, not_or]
    refine ⟨?_, writeKids_noEmpty ts g next h.2 g'⟩
    intro e
    simp only [Op.addData.injEq] at e
    rw [← e.2] at h; simp at h
  | .group ks :: ts, g, next, h, g' => by
    simp only [noEmptyData, Bool.and_eq_true] at h
    simp only [writeKids, List.mem_cons, List.mem_append, not_or]
    exact ⟨by simp, writeKids_noEmpty ks _ _ h.1 g', by simp, writeKids_noEmpty ts _ _ h.2 g'⟩

theorem levels_pos : ∀ ks : List Tree, 1 ≤ levels ks
  | [] => by simp [levels]
  | .data _ :: ts => by simp only [levels]; exact levels_pos ts
  | .group ks :: ts => by simp only [levels]; have := levels_pos ts; omega

theorem cut_levels : ∀ (ts : List Tree) (n : Nat), levels ts ≤ n + 1 → ts.map (cut n) = ts
  | [], _, _ => rfl
  | .data bs :: ts, n, h => by
    simp only [levels] at h
    simp only [List.map_cons, cut_levels ts n h]
    cases n <;> simp [cut]
  | .group ks :: ts, n, h => by
    simp only [levels] at h
    have hk := levels_pos ks
    simp only [List.map_cons, cut_levels ts n (by omega)]
    congr 1
    cases n with
    | zero => omega
    | succ n => simp only [cut, cut_levels ks n (by omega)]
/-- **Any tree of groups and non-empty data** written and closed is read back, in both modes, as the same
tree: same children in the same order, same kinds, same bytes. -/
theorem C30_tree_round_trip (kids : List Tree) (h : noEmptyData kids = true)
    (hL : (Writer.init.run (writeTree kids)).file.length < 2 ^ 63) :
    ∃ root, openArchive (Writer.init.run (writeTree kids)).file = .archive true root ∧
      (∀ light, explore (Writer.init.run (writeTree kids)).file light (levels kids) root = some (.group kids)) ∧
      ∀ n light, explore (Writer.init.run (writeTree kids)).file light n root = some (cut n (.group kids)) := by
  have hne : ∀ g, Op.addData g [] ∉ writeTree kids := by
    intro g
    simp only [writeTree, List.mem_append, List.mem_cons, List.not_mem_nil, or_false, not_or]
    exact ⟨writeKids_noEmpty kids 0 1 h g, by simp, by simp⟩
  obtain ⟨a1, a2, ⟨its, a3, a4⟩, a5, a6, a7⟩ := writeKids_run kids 0 1 Doc.init rfl rfl
  have hrun : Doc.init.run (writeTree kids) = (Doc.init.run (writeKids kids 0 1).1).step (.freeze 0) := by
    simp [writeTree, Doc.run, Doc.step]
  generalize hd : Doc.init.run (writeKids kids 0 1).1 = d at *
  have ef := fun j => frozen_freeze d 0 j (by omega)
  have ei := items_freeze d 0
  have hall : (d.step (.freeze 0)).allFrozen = true := by
    simp only [Doc.allFrozen, List.all_eq_true]
    intro x hx
    obtain ⟨j, hj, rfl⟩ := List.getElem_of_mem hx
    have hj' : j < (writeKids kids 0 1).2 := by rw [← a1]; simpa [Doc.step] using hj
    have hfj : (d.step (.freeze 0)).frozen j = true := by
      rw [ef]
      by_cases e : j = 0
      · rw [if_pos e]
      · rw [if_neg e]; exact a7 j (by omega) hj'
    simpa [Doc.frozen, List.getElem?_eq_getElem hj] using hfj
  -- the archive is closed at the end
  have hne1 : ∀ g, Op.addData g [] ∉ (writeKids kids 0 1).1 ++ [.freeze 0] := by
    intro g
    simp only [List.mem_append, List.mem_cons, List.not_mem_nil, or_false, not_or]
    exact ⟨writeKids_noEmpty kids 0 1 h g, by simp⟩
  have hg1 := good_run _ hne1 good_init
  have hd1 : Doc.init.run ((writeKids kids 0 1).1 ++ [.freeze 0]) = d.step (.freeze 0) := by rw [run_append, hd]; rfl
  rw [hd1] at hg1
  have hw : Writer.init.run (writeTree kids) = (Writer.init.run ((writeKids kids 0 1).1 ++ [.freeze 0])).close := by
    simp [writeTree, Writer.run, Writer.step]
  have hc : (Writer.init.run (writeTree kids)).closed = true := by
    rw [hw]
    obtain ⟨⟨rs, hI, -⟩, -⟩ := hg1
    have := (allFrozen_iff hI).1 hall
    simp only [Writer.close]
    split
    · rfl
    · rename_i hx
      simp only [Bool.and_eq_true, List.all_eq_true, not_and] at hx
      have h2 := hx (by
        intro o ho
        obtain ⟨g, hlt, rfl⟩ := List.getElem_of_mem ho
        exact this g _ (List.getElem?_eq_getElem hlt))
      simpa using h2
  obtain ⟨-, root, h1, h2⟩ := C30_archive_reads_back (writeTree kids) hne hc hL
  have key : ∀ n, treeOf (Doc.init.run (writeTree kids)) n 0 = cut n (.group kids) := by
    intro n
    rw [hrun]
    cases n with
    | zero => simp [treeOf, cut]
    | succ n =>
      have hsh : Shows (d.step (.freeze 0)) its kids := by
        refine Shows.mono ?_ _ _ a4
        intro j hj
        refine ⟨?_, ei j⟩
        rw [ef]; split
        · rfl
        · exact hj
      simp only [treeOf, cut]
      rw [ei, a3, show Doc.init.items 0 = [] from rfl, List.nil_append]
      exact congrArg Tree.group (shows_tree kids its n hsh)
  refine ⟨root, h1, ?_, ?_⟩
  · intro light
    rw [h2, key]
    have hp := levels_pos kids
    obtain ⟨m, hm⟩ : ∃ m, levels kids = m + 1 := ⟨levels kids - 1, by omega⟩
    rw [hm, cut, cut_levels kids m (by omega)]
  · intro n light; rw [h2, key]

/-- A tree with nested and empty groups and with data of different sizes. -/
example : noEmptyData [.data [1, 2, 3], .group [.group [], .data [9]], .group [], .data [0]] = true ∧
    (Writer.init.run (writeTree [.data [1, 2, 3], .group [.group [], .data [9]], .group [], .data [0]])).file.length < 2 ^ 63 := by
  have e : writeTree [.data [1, 2, 3], .group [.group [], .data [9]], .group [], .data [0]] =
      [.addData 0 [1, 2, 3], .addGroup 0, .addGroup 1, .freeze 2, .addData 1 [9], .freeze 1, .addGroup 0, .freeze 3,
        .addData 0 [0], .freeze 0, .close] := by simp [writeTree, writeKids]
  rw [e]
  exact ⟨by simp [noEmptyData], by decide +kernel⟩

/-- Groups interleaved, a child frozen after its parent. -/
example : (Writer.init.run [.addGroup 0, .addGroup 0, .addData 2 [1], .addData 1 [2], .addEmptyGroup 1, .freeze 0, .freeze 2,
    .freeze 1, .close]).closed = true := by decide +kernel

/-! ## C31 -/

/-- The file when the process stops after `k` writes. -/
def crashed (w : Writer) (k : Nat) : File := applyWrites (w.writes.take k)

/-- Stopping after any number of writes leaves a file that is not an archive, an archive with an empty
root, or the complete tree; the archive is flagged as finished only after the last write of a closed
archive. Groups are frozen after the groups inside them, as their destructors do. -/
theorem C31_crash_between_writes (ops : List Op) (hne : ∀ g, Op.addData g [] ∉ ops)
    (hord : freezesInOrder Doc.init ops = true) (hL : (Writer.init.run ops).file.length < 2 ^ 63) (k : Nat) :
    (openArchive (crashed (Writer.init.run ops) k) = .invalid ∨
     openArchive (crashed (Writer.init.run ops) k) = .archive false ⟨0, 0, []⟩ ∨
     (Doc.init.run ops).allFrozen = true ∧ ∃ flag root,
       openArchive (crashed (Writer.init.run ops) k) = .archive flag root ∧
       ∀ n light, explore (crashed (Writer.init.run ops) k) light n root = some (treeOf (Doc.init.run ops) n 0)) ∧
    (∀ root, openArchive (crashed (Writer.init.run ops) k) = .archive true root →
      (Writer.init.run ops).closed = true ∧ (Writer.init.run ops).writes.length ≤ k) := by
  have hG := good_run ops hne good_init
  have hC := crash_run ops hne good_init crash_init hord
  generalize Writer.init.run ops = w at *
  generalize Doc.init.run ops = d at *
  -- prefixes before the root pointer
  have early : ∀ tl : List Write, (∀ x ∈ tl, 16 ≤ x.pos) → ∀ j,
      openArchive (applyWrites ((⟨0, header⟩ :: tl).take j)) = .invalid ∨
      openArchive (applyWrites ((⟨0, header⟩ :: tl).take j)) = .archive false ⟨0, 0, []⟩ := by
    intro tl htl j
    cases j with
    | zero => exact Or.inl (by simp only [List.take_zero]; decide)
    | succ j =>
      refine Or.inr ?_
      rw [List.take_succ_cons]
      obtain ⟨a, b⟩ := headed_writes (tl.take j) (fun x hx => htl x (List.mem_of_mem_take hx))
      exact open_header _ a b
  rcases hC.log with ⟨hr, hc, tl, hw, htl⟩ | ⟨hall, tl, p, rs, htl, hI, hlay, hw⟩
  · have := early tl htl k
    rw [← hw] at this
    refine ⟨by rcases this with h | h <;> simp [crashed, h], ?_⟩
    intro root hroot
    rcases this with h | h <;> rw [crashed, h] at hroot <;> simp at hroot
  · -- the root group
    obtain ⟨o, ho, -⟩ := hI.root
    have hfz := (allFrozen_iff hI).1 hall
    obtain ⟨q, hq⟩ := Option.isSome_iff_exists.1 (hfz 0 o ho)
    have hs : slotOf w.groups 0 = q := by simp [slotOf, ho, hq]
    have hLL : ∀ fl, (layout fl (slotOf w.groups 0) rs).length < 2 ^ 63 := by
      intro fl
      have hf := hC.file
      rcases hw with ⟨hc, hw⟩ | ⟨hc, hw⟩
      · rw [hf, hw, hlay] at hL
        rw [layout_length] at hL ⊢; exact hL
      · rw [hf, hw, applyWrites_snoc, hlay, layout_flag] at hL
        rw [layout_length] at hL ⊢; exact hL
    have done : ∀ fl, ∃ root, openArchive (layout fl (slotOf w.groups 0) rs) = .archive (decide (fl = 255)) root ∧
        ∀ n light, explore (layout fl (slotOf w.groups 0) rs) light n root = some (treeOf d n 0) := by
      intro fl
      obtain ⟨root, h1, h2⟩ := open_layout hI (hLL fl)
      refine ⟨root, h1, ?_⟩
      intro n light
      have hx := explore_frozen hI (hLL fl) n ho hq (by rw [← hs]; exact h2)
      cases light
      · exact hx
      · exact explore_light n h2 ⟨rfl, fun i => ⟨fun _ => rfl, rfl⟩⟩ hx
    have hpre : ∀ j, (⟨0, header⟩ :: tl ++ [⟨8, le64 p⟩] : List Write).take j =
        if j ≤ tl.length + 1 then (⟨0, header⟩ :: tl : List Write).take j else ⟨0, header⟩ :: tl ++ [⟨8, le64 p⟩] := by
      intro j
      split
      · rw [List.take_append_of_le_length (by simpa using ‹_›)]
      · rw [List.take_of_length_le (by simp; omega)]
    rcases hw with ⟨hc, hw⟩ | ⟨hc, hw⟩
    · rw [crashed, hw, hpre]
      split
      · have := early tl htl k
        refine ⟨by rcases this with h | h <;> simp [h], ?_⟩
        intro root hroot
        rcases this with h | h <;> rw [h] at hroot <;> simp at hroot
      · rw [hlay]
        obtain ⟨root, h1, h2⟩ := done 0
        refine ⟨Or.inr (Or.inr ⟨hall, _, root, h1, h2⟩), ?_⟩
        intro root' hroot
        rw [h1] at hroot; simp at hroot
    · rw [crashed, hw]
      by_cases hk : k ≤ tl.length + 2
      · rw [List.take_append_of_le_length (by simp; omega), hpre]
        split
        · have := early tl htl k
          refine ⟨by rcases this with h | h <;> simp [h], ?_⟩
          intro root hroot
          rcases this with h | h <;> rw [h] at hroot <;> simp at hroot
        · rw [hlay]
          obtain ⟨root, h1, h2⟩ := done 0
          refine ⟨Or.inr (Or.inr ⟨hall, _, root, h1, h2⟩), ?_⟩
          intro root' hroot
          rw [h1] at hroot; simp at hroot
      · rw [List.take_of_length_le (by simp; omega), applyWrites_snoc, hlay, layout_flag]
        obtain ⟨root, h1, h2⟩ := done 255
        refine ⟨Or.inr (Or.inr ⟨hall, _, root, h1, h2⟩), ?_⟩
        intro root' _
        exact ⟨hc, by simp; omega⟩

/-- A write of data or of a group table that is cut short in the middle still leaves an archive with an
empty root. The other writes are the header, the root pointer and the one-byte flag. -/
theorem C31_torn_write (ops : List Op) (hne : ∀ g, Op.addData g [] ∉ ops)
    (hord : freezesInOrder Doc.init ops = true) (k j : Nat) (x : Write)
    (hx : (Writer.init.run ops).writes[k]? = some x) (h16 : 16 ≤ x.pos) :
    openArchive (writeAt (crashed (Writer.init.run ops) k) x.pos (x.bytes.take j)) = .archive false ⟨0, 0, []⟩ := by
  have hC := crash_run ops hne good_init crash_init hord
  generalize Writer.init.run ops = w at *
  have core : ∀ tl : List Write, (∀ y ∈ tl, 16 ≤ y.pos) → ∀ m, crashed w k = applyWrites ((⟨0, header⟩ :: tl).take (m + 1)) →
      openArchive (writeAt (crashed w k) x.pos (x.bytes.take j)) = .archive false ⟨0, 0, []⟩ := by
    intro tl htl m hm
    rw [hm, List.take_succ_cons]
    obtain ⟨a, b⟩ := headed_writes (tl.take m) (fun y hy => htl y (List.mem_of_mem_take hy))
    obtain ⟨c, e⟩ := writeAt_take _ x.pos (x.bytes.take j) 16 h16 b
    exact open_header _ (by rw [c, a]) e
  have main : ∀ tl rest : List Write, (∀ y ∈ tl, 16 ≤ y.pos) → (∀ y ∈ rest, y.pos < 16) → w.writes = ⟨0, header⟩ :: tl ++ rest →
      openArchive (writeAt (crashed w k) x.pos (x.bytes.take j)) = .archive false ⟨0, 0, []⟩ := by
    intro tl rest htl hrest hw
    rw [hw] at hx
    cases k with
    | zero =>
      simp at hx
      rw [← hx] at h16
      simp at h16
    | succ m =>
      have hm : m < tl.length := by
        rcases Nat.lt_or_ge m tl.length with h | h
        · exact h
        · rw [List.cons_append, List.getElem?_cons_succ, List.getElem?_append_right h] at hx
          have := hrest x (List.mem_of_getElem? hx)
          omega
      refine core tl htl m ?_
      rw [crashed, hw, List.take_append_of_le_length (by simp; omega)]
  rcases hC.log with ⟨-, -, tl, hw, htl⟩ | ⟨-, tl, p, rs, htl, -, -, hw⟩
  · exact main tl [] htl (by simp) (by rw [hw]; simp)
  · rcases hw with ⟨-, hw⟩ | ⟨-, hw⟩
    · exact main tl [⟨8, le64 p⟩] htl (by simp) hw
    · exact main tl [⟨8, le64 p⟩, ⟨5, [255]⟩] htl (by simp) (by rw [hw]; simp)

/-- The header itself is not safe against a torn write: a file that ends inside the version number makes
the reader use an array out of bounds. -/
theorem C31_torn_header_out_of_bounds :
    ∃ j, j < header.length ∧ openArchive (header.take j) = .outOfBounds := ⟨6, by decide, by decide⟩

/-- A program in destructor order: the hypotheses hold, and the complete tree and the empty root both
occur. -/
example : let ops : List Op := [.addGroup 0, .addData 1 [7], .freeze 1, .addData 0 [8], .freeze 0, .close]
    freezesInOrder Doc.init ops = true ∧ (Writer.init.run ops).writes.length = 11 ∧
    openArchive (crashed (Writer.init.run ops) 8) = .archive false ⟨0, 0, []⟩ ∧
    openArchive (crashed (Writer.init.run ops) 10) =
      .archive false ⟨(crashed (Writer.init.run ops) 10).length - 24, 2, [25, 41 ||| emptyData]⟩ := by decide +kernel

/-! ## C32 -/

/-- Reading from a data block: a request inside the block returns exactly those bytes, any other request
reads nothing, as long as `offset + size` does not wrap around 64 bits. -/
theorem C32_read_inside_block (pre bs post : File) (size offset : Nat) (hb : bs ≠ []) (hp : pre ≠ [])
    (hL : (pre ++ le64 bs.length ++ bs ++ post).length < 2 ^ 63) (hw : offset + size < 2 ^ 64) :
    ∃ d, IData.open (pre ++ le64 bs.length ++ bs ++ post) (pre.length ||| emptyData) = some d ∧ d.size = bs.length ∧
      d.read (pre ++ le64 bs.length ++ bs ++ post) size offset =
        some (if size ≠ 0 ∧ offset + size ≤ bs.length then some ((bs.drop offset).take size) else none) := by
  have hb0 : bs.length ≠ 0 := by simpa using hb
  have hp0 : pre.length ≠ 0 := by simpa using hp
  have hlen : (pre ++ le64 bs.length ++ bs ++ post).length = pre.length + 8 + bs.length + post.length := by simp; omega
  rw [hlen] at hL
  have e1 : readAt (pre ++ le64 bs.length ++ bs ++ post) pre.length 8 = some (le64 bs.length) := by
    have := readAt_mid pre (le64 bs.length) (bs ++ post) 0 8 (by simp)
    rw [Nat.add_zero, List.drop_zero, List.take_of_length_le (by simp)] at this
    rw [List.append_assoc _ bs post]; exact this
  refine ⟨⟨pre.length, bs.length⟩, ?_, rfl, ?_⟩
  · simp only [IData.open, data_pos _ (show pre.length < 2 ^ 63 by omega)]
    rw [if_neg hp0, e1, Option.map_some, unle_le64 _ (by omega)]
  · simp only [IData.read]
    have hm : (offset + size) % 2 ^ 64 = offset + size := by omega
    rw [hm]
    by_cases h : size ≠ 0 ∧ offset + size ≤ bs.length
    · rw [if_neg (by omega), if_pos h]
      have hm2 : (pre.length + offset + 8) % 2 ^ 64 = (pre ++ le64 bs.length).length + offset := by simp; omega
      rw [hm2, readAt_mid _ _ _ _ _ h.2]
      rfl
    · rw [if_pos (by omega), if_neg h]

/-- A request that wraps passes the check: 8 bytes at offset 2^64-8 of a one-byte block are the bytes of its
size field, which are not part of the data. -/
theorem C32_wrapping_read_escapes :
    IData.read ⟨16, 1⟩ (header ++ le64 1 ++ [42]) 8 (2 ^ 64 - 8) = some (some (le64 1)) := by decide +kernel

example : ([1] : File) ≠ [] ∧ ([1] ++ le64 2 ++ [7, 8] ++ [9] : File).length < 2 ^ 63 := by decide +kernel

/-! ## C33 -/

/-- Each addition takes exactly one child slot, in every group, whatever the calls before: the number of
children in the table is the number of items added. -/
theorem C33_one_slot_per_item (ops : List Op) (hne : ∀ g, Op.addData g [] ∉ ops) (g : Nat) (o : OGroup)
    (hg : (Writer.init.run ops).groups[g]? = some o) :
    o.kids.length = ((Doc.init.run ops).items g).length := by
  obtain ⟨⟨rs, hI, -⟩, -⟩ := good_run ops hne good_init
  exact hI.kidsLen g o hg

/-- The same seen by the reader. -/
theorem C33_reader_counts_items (ops : List Op) (hne : ∀ g, Op.addData g [] ∉ ops)
    (hc : (Writer.init.run ops).closed = true) (hL : (Writer.init.run ops).file.length < 2 ^ 63) :
    ∃ root, openArchive (Writer.init.run ops).file = .archive true root ∧ root.num = ((Doc.init.run ops).items 0).length := by
  have h := good_run ops hne good_init
  obtain ⟨root, h1, h2, -⟩ := good_read h hL
  have h0 : (Doc.init.run ops).frozen 0 = true := by
    obtain ⟨⟨rs, hI, -⟩, hcl⟩ := h
    obtain ⟨o, ho, -⟩ := hI.root
    rw [hI.fro 0 o ho]; exact hcl hc 0 o ho
  rw [h0] at h2; rw [hc] at h1
  exact ⟨root, h1, h2⟩

/-- Zero-length data takes two slots, in every open group. -/
theorem C33_zero_length_takes_two (w : Writer) (g : Nat) (o : OGroup) (hg : w.groups[g]? = some o) (ho : o.pos = none) :
    ∃ o', (w.step (.addData g [])).groups[g]? = some o' ∧ o'.kids.length = o.kids.length + 2 := by
  have h := (isOpen_iff w g).2 ⟨o, hg, ho⟩
  refine ⟨{ o with kids := o.kids ++ [emptyData] ++ [0 ||| emptyData] }, ?_, by simp⟩
  simp only [Writer.step, Writer.addData, h, if_true, List.length_nil, Writer.pushKid]
  rw [getElem?_push_of _ (getElem?_push_of _ hg)]
  simp

/-- So the reader finds one child too many: the data added second has index 2. -/
theorem C33_zero_length_shifts_index :
    ∃ root, openArchive (Writer.init.run [.addData 0 [], .addData 0 [5], .freeze 0, .close]).file = .archive true root ∧
      root.num = 3 ∧ explore (Writer.init.run [.addData 0 [], .addData 0 [5], .freeze 0, .close]).file false 1 root =
        some (.group [.data [], .data [], .data [5]]) := ⟨⟨25, 3, [emptyData, emptyData, 16 ||| emptyData]⟩, by decide +kernel, rfl, rfl⟩

/-! ## C34 -/

/-- Light mode gives the same children: for every file and every position where the group can be read in
full, opening it in light mode works, and `getNumChildren`, `getGroup` and `getData` agree for every
index. -/
theorem C34_light_same_children (f : File) (pos : Nat) (g : IGroup) (h : IGroup.open f pos false = some g) :
    ∃ gl, IGroup.open f pos true = some gl ∧ gl.num = g.num ∧
      ∀ i, (∀ light, gl.getGroup f i light = g.getGroup f i light) ∧ gl.getData f i = g.getData f i := by
  obtain ⟨gl, h1, -⟩ := open_light h
  obtain ⟨h2, h3⟩ := light_children h h1
  exact ⟨gl, h1, h2, h3⟩

/-- The whole tree below a group is the same in light mode. -/
theorem C34_light_same_tree (f : File) (pos : Nat) (g : IGroup) (h : IGroup.open f pos false = some g) (n : Nat) (t : Tree)
    (ht : explore f false n g = some t) : ∃ gl, IGroup.open f pos true = some gl ∧ explore f true n gl = some t := by
  obtain ⟨gl, h1, -⟩ := open_light h
  exact ⟨gl, h1, explore_light n h (light_children h h1) ht⟩

/-- In full mode every child is known as a group or as data, never both. -/
theorem C34_full_kinds (f : File) (pos : Nat) (g : IGroup) (h : IGroup.open f pos false = some g) (i : Nat) :
    (g.isChildGroup i || g.isChildData i) = decide (i < g.num) ∧ (g.isChildGroup i && g.isChildData i) = false := by
  have hk : g.kids.length = g.num := by
    rcases open_full h with ⟨-, rfl⟩ | ⟨-, c, bs, -, -, rfl⟩
    · rfl
    · exact words_length _ _
  unfold IGroup.isChildGroup IGroup.isChildData
  rcases hs : g.kids[i]? with _ | s
  · have : ¬ i < g.num := by
      intro hlt; rw [← hk] at hlt; rw [List.getElem?_eq_getElem hlt] at hs; simp at hs
    simp [this]
  · have : i < g.num := by rw [← hk]; exact lt_of_getElem? hs
    by_cases e : s &&& emptyData = 0 <;> simp [this, e]

/-- But the kind queries do not work in light mode: with nine or more children every child is reported as
neither group nor data. -/
theorem C34_light_kind_queries_fail (f : File) (pos : Nat) (g gl : IGroup) (h : IGroup.open f pos false = some g)
    (hl : IGroup.open f pos true = some gl) (hn : 9 ≤ g.num) (i : Nat) :
    gl.isChildGroup i = false ∧ gl.isChildData i = false := by
  rcases open_full h with ⟨-, rfl⟩ | ⟨h0, c, bs, hc, hb, rfl⟩
  · simp at hn
  · have : ¬ unle c < 9 := by simpa using hn
    simp [IGroup.open, h0, hc, this] at hl
    subst hl
    exact ⟨rfl, rfl⟩

/-- A group of nine children, read in light mode. -/
example : let ops := List.replicate 9 (Op.addData 0 [1]) ++ [.freeze 0]
    ∃ g gl, IGroup.open (Writer.init.run ops).file 97 false = some g ∧
      IGroup.open (Writer.init.run ops).file 97 true = some gl ∧ g.num = 9 ∧ gl.isLight = true ∧
      g.isChildData 8 = true ∧ gl.isChildData 8 = false :=
  ⟨(IGroup.open (Writer.init.run (List.replicate 9 (Op.addData 0 [1]) ++ [.freeze 0])).file 97 false).getD ⟨0, 0, []⟩,
    ⟨97, 9, []⟩, by decide +kernel, by decide +kernel, by decide +kernel, by decide +kernel, by decide +kernel,
    by decide +kernel⟩

end F3D.Props

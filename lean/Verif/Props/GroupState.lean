import Verif.Props.Sampler
import Verif.Spec.GroupState

/-!
# Property C94: field groups over a history of calls
-/

namespace F3D.Props
open F3D.GroupState
open F3D.Spec.GroupState
variable {X R : Type} [DecidableEq X]

/-! ## Lists -/

omit [DecidableEq X] in
theorem grabKind_eq (types : List Vox) (hn : types.Nodup) (e : Entry X R) (l : Lists X R) (k k' : Kind) (t' : Vox) :
    grabKind types e l k k' t' =
      if k' = k ∧ e.fld.kind = k ∧ t' ∈ types ∧ e.fld.vox = t' then l k' t' ++ [e] else l k' t' := by
  unfold grabKind
  induction types generalizing l with
  | nil => simp
  | cons t types ih =>
    rw [List.nodup_cons] at hn
    rw [List.foldl_cons, ih hn.2]
    unfold grabInto
    by_cases h1 : e.fld.kind = k ∧ e.fld.vox = t
    · rw [if_pos h1]
      obtain ⟨h1a, h1b⟩ := h1
      by_cases hk : k' = k
      · by_cases ht : t' = t
        · subst ht
          simp [hk, h1a, h1b, hn.1]
        · have : ¬ e.fld.vox = t' := fun h => ht (by rw [← h, h1b])
          simp [this, ht]
      · simp [hk]
    · rw [if_neg h1]
      by_cases hk : e.fld.kind = k
      · have hv : ¬ e.fld.vox = t := fun h => h1 ⟨hk, h⟩
        congr 1
        simp only [List.mem_cons, eq_iff_iff]
        constructor
        · rintro ⟨a, b, c, d⟩; exact ⟨a, b, Or.inr c, d⟩
        · rintro ⟨a, b, c, d⟩
          rcases c with c | c
          · exact absurd (d.trans c) hv
          · exact ⟨a, b, c, d⟩
      · simp [hk]

omit [DecidableEq X] in
theorem grab_eq (types : List Vox) (hn : types.Nodup) (ks : List Kind) (hk : ks.Nodup) (e : Entry X R) (l : Lists X R)
    (k' : Kind) (t' : Vox) : grab types ks e l k' t' =
      if k' ∈ ks ∧ e.fld.kind = k' ∧ t' ∈ types ∧ e.fld.vox = t' then l k' t' ++ [e] else l k' t' := by
  unfold grab
  induction ks generalizing l with
  | nil => simp
  | cons k ks ih =>
    rw [List.nodup_cons] at hk
    rw [List.foldl_cons, ih hk.2, grabKind_eq types hn]
    by_cases h : k' = k
    · subst h; simp [hk.1]
    · simp [h]

omit [DecidableEq X] in
/-- Grabbing a list of fields adds those of the class and type to the end of each list. -/
theorem grabs_eq (types : List Vox) (hn : types.Nodup) (ks : List Kind) (hk : ks.Nodup) (mk : Fld → Entry X R)
    (hmk : ∀ f, (mk f).fld = f) (fs : List Fld) (l : Lists X R) (k : Kind) (t : Vox) (hkk : k ∈ ks) (ht : t ∈ types) :
    fs.foldl (fun l f => grab types ks (mk f) l) l k t =
      l k t ++ (fs.filter fun f => decide (f.kind = k ∧ f.vox = t)).map mk := by
  induction fs generalizing l with
  | nil => simp
  | cons f fs ih =>
    rw [List.foldl_cons, ih, grab_eq types hn ks hk, hmk]
    by_cases h : f.kind = k ∧ f.vox = t
    · rw [if_pos ⟨hkk, h.1, ht, h.2⟩, List.filter_cons_of_pos (by simp [h])]
      simp
    · rw [if_neg (fun h' => h ⟨h'.2.1, h'.2.2.2⟩), List.filter_cons_of_neg (by simpa using h)]

omit [DecidableEq X] in
theorem count_sum (types : List Vox) (ks : List Kind) (l : Lists X R) :
    count types ks l = (ks.map fun k => (types.map fun t => (l k t).length).sum).sum := by
  unfold count
  have inner : ∀ (k : Kind) (ts : List Vox) (n : Nat),
      ts.foldl (fun n t => n + (l k t).length) n = n + (ts.map fun t => (l k t).length).sum := by
    intro k ts
    induction ts with
    | nil => simp
    | cons t ts ih => intro n; simp only [List.foldl_cons, ih, List.map_cons, List.sum_cons]; omega
  have outer : ∀ (ks : List Kind) (n : Nat), ks.foldl (fun n k => types.foldl (fun n t => n + (l k t).length) n) n =
      n + (ks.map fun k => (types.map fun t => (l k t).length).sum).sum := by
    intro ks
    induction ks with
    | nil => simp
    | cons k ks ih => intro n; rw [List.foldl_cons, ih, inner, List.map_cons, List.sum_cons]; omega
  rw [outer]; omega

/-- Entries of one class and type. -/
def ofKind (k : Kind) (t : Vox) (l : List (Entry X R)) : List (Entry X R) :=
  l.filter fun e => decide (e.fld.kind = k ∧ e.fld.vox = t)

omit [DecidableEq X] in
theorem sum_ofKind (types : List Vox) (hn : types.Nodup) (ks : List Kind) (hk : ks.Nodup) (l : List (Entry X R)) :
    (ks.map fun k => (types.map fun t => (ofKind k t l).length).sum).sum =
      (l.filter fun e => decide (e.fld.kind ∈ ks ∧ e.fld.vox ∈ types)).length := by
  have one : ∀ (ts : List Vox), ts.Nodup → ∀ (k : Kind) (e : Entry X R),
      (ts.map fun t => (ofKind k t [e]).length).sum = if e.fld.kind = k ∧ e.fld.vox ∈ ts then 1 else 0 := by
    intro ts
    induction ts with
    | nil => simp
    | cons t ts ih =>
      intro hnt k e
      rw [List.nodup_cons] at hnt
      simp only [List.map_cons, List.sum_cons, ih hnt.2]
      by_cases h : e.fld.kind = k ∧ e.fld.vox = t
      · obtain ⟨h1, h2⟩ := h
        have : ¬ e.fld.vox ∈ ts := by rw [h2]; exact hnt.1
        simp [ofKind, h1, h2, hnt.1]
      · have h0 : ofKind k t [e] = [] := by simp [ofKind]; exact fun a b => h ⟨a, b⟩
        rw [h0]
        by_cases hkk : e.fld.kind = k
        · have : ¬ e.fld.vox = t := fun x => h ⟨hkk, x⟩
          simp [hkk, this]
        · simp [hkk]
  have two : ∀ (ks : List Kind), ks.Nodup → ∀ (e : Entry X R),
      (ks.map fun k => (types.map fun t => (ofKind k t [e]).length).sum).sum =
        if e.fld.kind ∈ ks ∧ e.fld.vox ∈ types then 1 else 0 := by
    intro ks
    induction ks with
    | nil => simp
    | cons k ks ih =>
      intro hks e
      rw [List.nodup_cons] at hks
      rw [List.map_cons, List.sum_cons, ih hks.2, one types hn]
      by_cases hkk : e.fld.kind = k
      · have : ¬ e.fld.kind ∈ ks := by rw [hkk]; exact hks.1
        by_cases hv : e.fld.vox ∈ types <;> simp [hkk, hv, hks.1]
      · simp [hkk]
  induction l with
  | nil => simp [ofKind]
  | cons e l ih =>
    have split : ∀ k t, (ofKind k t (e :: l)).length = (ofKind k t [e]).length + (ofKind k t l).length := by
      intro k t
      unfold ofKind
      rw [← List.length_append, ← List.filter_append]; rfl
    have addsum : ∀ {β : Type} (bs : List β) (f g : β → Nat), (bs.map fun b => f b + g b).sum = (bs.map f).sum + (bs.map g).sum := by
      intro β bs f g
      induction bs with
      | nil => simp
      | cons b bs ih => simp only [List.map_cons, List.sum_cons, ih]; omega
    simp only [split, addsum, ih, two ks hk e]
    by_cases h : e.fld.kind ∈ ks ∧ e.fld.vox ∈ types
    · rw [if_pos h, List.filter_cons_of_pos (by simpa using h), List.length_cons]; omega
    · rw [if_neg h, List.filter_cons_of_neg (by simpa using h)]; omega

/-! ## The group and the book -/

structure Follows (types : List Vox) (g : Group X R) (b : Book X R) : Prop where
  osToWs : g.osToWs = b.transform
  bounds : g.bounds = b.bounds
  remap : g.remap = b.remap
  lists : ∀ k ∈ allKinds, ∀ t ∈ types, g.lists k t = ofKind k t b.members
  known : ∀ e ∈ b.members, takes types e.fld = true
  mins : (0 < count types mipKinds g.mins) ↔ b.minima = true
  maxs : (0 < count types mipKinds g.maxs) ↔ b.maxima = true
  prefilt : g.prefilt = (b.minima && b.maxima)
  last : g.all = b.last

omit [DecidableEq X] in
theorem count_pos (types : List Vox) (ks : List Kind) (l : Lists X R) :
    0 < count types ks l ↔ ∃ k ∈ ks, ∃ t ∈ types, l k t ≠ [] := by
  rw [count_sum, List.sum_pos_iff_exists_pos_nat]
  simp only [List.mem_map]
  constructor
  · rintro ⟨x, ⟨k, hk, rfl⟩, hx⟩
    rw [List.sum_pos_iff_exists_pos_nat] at hx
    obtain ⟨y, hy, hy0⟩ := hx
    obtain ⟨t, ht, rfl⟩ := List.mem_map.mp hy
    exact ⟨k, hk, t, ht, List.ne_nil_of_length_pos hy0⟩
  · rintro ⟨k, hk, t, ht, h⟩
    refine ⟨_, ⟨k, hk, rfl⟩, ?_⟩
    rw [List.sum_pos_iff_exists_pos_nat]
    exact ⟨_, List.mem_map.mpr ⟨t, ht, rfl⟩, List.length_pos_iff.mpr h⟩

theorem nodupAll : allKinds.Nodup := by decide
theorem nodupMip : mipKinds.Nodup := by decide

omit [DecidableEq X] in
theorem count_grabs (types : List Vox) (hn : types.Nodup) (mk : Fld → Entry X R) (hmk : ∀ f, (mk f).fld = f)
    (fs : List Fld) (l : Lists X R) :
    0 < count types mipKinds (fs.foldl (fun l f => grab types mipKinds (mk f) l) l) ↔
      0 < count types mipKinds l ∨ fs.any (takesMip types) = true := by
  rw [count_pos, count_pos]
  constructor
  · rintro ⟨k, hk, t, ht, h⟩
    rw [grabs_eq types hn mipKinds nodupMip mk hmk fs l k t hk ht] at h
    by_cases h0 : l k t = []
    · right
      rw [h0, List.nil_append] at h
      have : (fs.filter fun f => decide (f.kind = k ∧ f.vox = t)) ≠ [] := fun e => h (by rw [e]; rfl)
      obtain ⟨f, hf⟩ := List.exists_mem_of_ne_nil _ this
      rw [List.mem_filter, decide_eq_true_eq] at hf
      rw [List.any_eq_true]
      refine ⟨f, hf.1, ?_⟩
      unfold takesMip
      rw [hf.2.1, hf.2.2]
      simp only [mipKinds, List.mem_cons, List.not_mem_nil, or_false] at hk
      rcases hk with rfl | rfl <;> simp [ht]
    · exact Or.inl ⟨k, hk, t, ht, h0⟩
  · rintro (⟨k, hk, t, ht, h⟩ | h)
    · refine ⟨k, hk, t, ht, ?_⟩
      rw [grabs_eq types hn mipKinds nodupMip mk hmk fs l k t hk ht]
      simp [h]
    · rw [List.any_eq_true] at h
      obtain ⟨f, hf, h⟩ := h
      unfold takesMip at h
      rw [Bool.and_eq_true, Bool.or_eq_true, decide_eq_true_eq, decide_eq_true_eq, decide_eq_true_eq] at h
      have hk : f.kind ∈ mipKinds := by
        rcases h.1 with e | e <;> rw [e] <;> decide
      refine ⟨f.kind, hk, f.vox, h.2, ?_⟩
      rw [grabs_eq types hn mipKinds nodupMip mk hmk fs l _ _ hk h.2]
      have : f ∈ fs.filter fun f' => decide (f'.kind = f.kind ∧ f'.vox = f.vox) := by
        rw [List.mem_filter]; exact ⟨hf, by simp⟩
      have hne := List.ne_nil_of_mem (List.mem_map_of_mem (f := mk) this)
      simp only [ne_eq, List.append_eq_nil_iff, not_and]
      exact fun _ => hne

/-- Adding minima and maxima. -/
theorem follows_minmax {one : X} {types : List Vox} (hn : types.Nodup) {g : Group X R} {b : Book X R}
    (h : Follows types g b) (mn mx : List Fld) :
    Follows types (setupMinMax one types mn mx g)
      { b with minima := b.minima || mn.any (takesMip types), maxima := b.maxima || mx.any (takesMip types) } := by
  have key1 : ∀ (g' : Group X R), 0 < count types mipKinds (mn.foldl (fun l f => grab types mipKinds (entry one g' f) l) g.mins) ↔
      (b.minima || mn.any (takesMip types)) = true := by
    intro g'
    rw [count_grabs types hn (entry one g') (fun _ => rfl), h.mins, Bool.or_eq_true]
  have key2 : ∀ (g' : Group X R), 0 < count types mipKinds (mx.foldl (fun l f => grab types mipKinds (entry one g' f) l) g.maxs) ↔
      (b.maxima || mx.any (takesMip types)) = true := by
    intro g'
    rw [count_grabs types hn (entry one g') (fun _ => rfl), h.maxs, Bool.or_eq_true]
  have hp := h.prefilt
  unfold setupMinMax
  simp only
  split
  · rename_i hc
    refine ⟨h.osToWs, h.bounds, h.remap, h.lists, h.known, key1 _, key2 _, ?_, h.last⟩
    have a1 := (key1 _).mp hc.1
    have a2 := (key2 _).mp hc.2
    show true = _
    rw [a1, a2]; rfl
  · rename_i hc
    refine ⟨h.osToWs, h.bounds, h.remap, h.lists, h.known, key1 _, key2 _, ?_, h.last⟩
    show g.prefilt = _
    rw [hp]
    have hc' : ¬ ((b.minima || mn.any (takesMip types)) = true ∧ (b.maxima || mx.any (takesMip types)) = true) := by
      rw [← key1 { g with aux := g.aux ++ mn ++ mx },
        ← key2 { g with aux := g.aux ++ mn ++ mx, mins := mn.foldl (fun l f => grab types mipKinds (entry one { g with aux := g.aux ++ mn ++ mx } f) l) g.mins }]
      exact hc
    revert hc'
    cases b.minima <;> cases b.maxima <;> cases mn.any (takesMip types) <;> cases mx.any (takesMip types) <;> simp

theorem follows_give {one : X} {types : List Vox} (hn : types.Nodup) {g : Group X R} {b : Book X R}
    (h : Follows types g b) (fs mn mx : List Fld) :
    Follows types (setup one types fs mn mx g) (b.give one types fs mn mx) := by
  unfold setup
  simp only
  have base : Follows types { g with
      all := fs
      lists := fs.foldl (fun l f => grab types allKinds (entry one { g with all := fs } f) l) g.lists }
      { b with members := b.members ++ (fs.filter (takes types)).map fun f =>
          ⟨f, if b.transform = one then none else some b.transform, b.bounds, b.remap⟩, last := fs } := by
    refine ⟨h.osToWs, h.bounds, h.remap, ?_, ?_, h.mins, h.maxs, h.prefilt, rfl⟩
    · intro k hk t ht
      show fs.foldl _ g.lists k t = _
      rw [grabs_eq types hn allKinds nodupAll (entry one { g with all := fs }) (fun _ => rfl) fs g.lists k t hk ht,
        h.lists k hk t ht]
      unfold ofKind
      rw [List.filter_append]
      congr 1
      rw [List.filter_map, List.filter_filter]
      have hko : k ≠ .other := by
        intro e; subst e; revert hk; decide
      have hfilter : (fs.filter fun f => decide (f.kind = k ∧ f.vox = t)) =
          fs.filter fun a => ((fun e : Entry X R => decide (e.fld.kind = k ∧ e.fld.vox = t)) ∘ fun f =>
            (⟨f, if b.transform = one then none else some b.transform, b.bounds, b.remap⟩ : Entry X R)) a && takes types a := by
        apply List.filter_congr
        intro f _
        simp only [Function.comp]
        by_cases hf : f.kind = k ∧ f.vox = t
        · have : takes types f = true := by
            unfold takes; rw [hf.1, hf.2]; simp [hko, ht]
          simp [hf, this]
        · simp [hf]
      rw [hfilter]
      congr 1
      funext f
      unfold entry
      simp only [h.osToWs, h.bounds, h.remap]
      by_cases hx : b.transform = one <;> simp [hx]
    · intro e he
      rcases List.mem_append.mp he with he | he
      · exact h.known e he
      · obtain ⟨f, hf, rfl⟩ := List.mem_map.mp he
        exact (List.mem_filter.mp hf).2
  exact follows_minmax hn base mn mx

omit [DecidableEq X] in
theorem readAll_eq (types : List Vox) (v : FileView) (attr : String) :
    readAll types v attr = (layersNamed types v attr, layersNamed types v (attr ++ "_min"), layersNamed types v (attr ++ "_max")) := by
  unfold readAll layersNamed
  have inner : ∀ (name : String) (ts : List Vox) (r : List Fld × List Fld × List Fld),
      ts.foldl (fun (r : List Fld × List Fld × List Fld) t =>
        (r.1 ++ v.read t name attr, r.2.1 ++ v.read t name (attr ++ "_min"), r.2.2 ++ v.read t name (attr ++ "_max"))) r =
      (r.1 ++ ts.flatMap fun t => v.read t name attr, r.2.1 ++ ts.flatMap fun t => v.read t name (attr ++ "_min"),
        r.2.2 ++ ts.flatMap fun t => v.read t name (attr ++ "_max")) := by
    intro name ts
    induction ts with
    | nil => intro r; simp
    | cons t ts ih => intro r; rw [List.foldl_cons, ih]; simp [List.append_assoc]
  have outer : ∀ (ns : List String) (r : List Fld × List Fld × List Fld),
      ns.foldl (fun r name => types.foldl (fun (r : List Fld × List Fld × List Fld) t =>
        (r.1 ++ v.read t name attr, r.2.1 ++ v.read t name (attr ++ "_min"), r.2.2 ++ v.read t name (attr ++ "_max"))) r) r =
      (r.1 ++ ns.flatMap fun n => types.flatMap fun t => v.read t n attr,
        r.2.1 ++ ns.flatMap fun n => types.flatMap fun t => v.read t n (attr ++ "_min"),
        r.2.2 ++ ns.flatMap fun n => types.flatMap fun t => v.read t n (attr ++ "_max")) := by
    intro ns
    induction ns with
    | nil => intro r; simp
    | cons n ns ih => intro r; rw [List.foldl_cons, inner, ih]; simp [List.append_assoc]
  rw [outer]; simp

omit [DecidableEq X] in
theorem made_any {types : List Vox} {g : Group X R} {b : Book X R} (h : Follows types g b) (mk : Fld → Bool → Nat)
    (mn : Bool) : (madeFrom types mk mn g.lists).any (takesMip types) = !b.members.isEmpty := by
  cases hm : b.members with
  | nil =>
    have : madeFrom types mk mn g.lists = [] := by
      unfold madeFrom
      rw [List.flatMap_eq_nil_iff]
      intro k hk
      rw [List.flatMap_eq_nil_iff]
      intro t ht
      rw [h.lists k hk t ht, hm]; rfl
    rw [this]; rfl
  | cons e es =>
    have he : e ∈ b.members := by rw [hm]; simp
    have hkn := h.known e he
    unfold takes at hkn
    rw [Bool.and_eq_true, decide_eq_true_eq, decide_eq_true_eq] at hkn
    have hk : e.fld.kind ∈ allKinds := by
      revert hkn; cases e.fld.kind <;> simp [allKinds]
    show _ = true
    rw [List.any_eq_true]
    refine ⟨⟨mipOf e.fld.kind, e.fld.vox, mk e.fld mn⟩, ?_, ?_⟩
    · unfold madeFrom
      rw [List.mem_flatMap]
      refine ⟨e.fld.kind, hk, ?_⟩
      rw [List.mem_flatMap]
      refine ⟨e.fld.vox, hkn.2, ?_⟩
      rw [h.lists _ hk _ hkn.2, List.mem_map]
      exact ⟨e, by unfold ofKind; rw [List.mem_filter]; exact ⟨he, by simp⟩, rfl⟩
    · unfold takesMip
      revert hkn; cases e.fld.kind <;> simp [mipOf]

theorem follows_step {one : X} {types : List Vox} (hn : types.Nodup) {g : Group X R} {b : Book X R}
    (h : Follows types g b) (c : Call X R) : Follows types (step one types g c) (b.note one types c) := by
  cases c with
  | setOsToWs x => exact ⟨rfl, h.bounds, h.remap, h.lists, h.known, h.mins, h.maxs, h.prefilt, h.last⟩
  | setRemap r => exact ⟨h.osToWs, h.bounds, rfl, h.lists, h.known, h.mins, h.maxs, h.prefilt, h.last⟩
  | setup fs mn mx => exact follows_give hn h fs mn mx
  | load file attr =>
    cases file with
    | none => exact h
    | some v =>
      show Follows types (setup one types (readAll types v attr).1 (readAll types v attr).2.1 (readAll types v attr).2.2 g) _
      rw [readAll_eq]
      exact follows_give hn h _ _ _
  | makeMinMax mk =>
    have := follows_minmax (one := one) hn h (madeFrom types mk true g.lists) (madeFrom types mk false g.lists)
    rw [made_any h, made_any h] at this
    exact this
  | setBounds x =>
    cases x with
    | false => exact ⟨h.osToWs, rfl, h.remap, h.lists, h.known, h.mins, h.maxs, h.prefilt, h.last⟩
    | true =>
      refine ⟨h.osToWs, rfl, h.remap, ?_, ?_, h.mins, h.maxs, h.prefilt, h.last⟩
      · intro k hk t ht
        show (if k ∈ allKinds ∧ t ∈ types then (g.lists k t).map _ else g.lists k t) = ofKind k t (b.members.map _)
        rw [if_pos ⟨hk, ht⟩, h.lists k hk t ht]
        unfold ofKind
        rw [List.filter_map]
        rfl
      · intro e he
        have he' : e ∈ b.members.map fun e => { e with bounds := true } := he
        obtain ⟨e', h1, rfl⟩ := List.mem_map.mp he'
        exact h.known e' h1

theorem follows_after (one : X) (types : List Vox) (hn : types.Nodup) (cs : List (Call X R)) :
    Follows types (after one types cs) (book one types cs) := by
  unfold after book
  have gen : ∀ (cs : List (Call X R)) (g : Group X R) (b : Book X R), Follows types g b →
      Follows types (cs.foldl (step one types) g) (cs.foldl (Book.note one types) b) := by
    intro cs
    induction cs with
    | nil => intro g b h; exact h
    | cons c cs ih => intro g b h; exact ih _ _ (follows_step hn h c)
  refine gen cs _ _ ⟨rfl, rfl, rfl, ?_, ?_, ?_, ?_, rfl, rfl⟩
  · intro k _ t _; rfl
  · intro e he; cases he
  · rw [count_pos]; simp [Group.new]
  · rw [count_pos]; simp [Group.new]

/-! ## C94 -/

/-- C94: after any history of calls the list of each class and voxel type has exactly the fields of that class and type
that were given to the group, in the order of giving, each with the transform and operator set when it was given (none
for the identity), and with the test against world bounds if it was on then or switched on later. -/
theorem C94_members (one : X) (types : List Vox) (hn : types.Nodup) (cs : List (Call X R)) (k : Kind) (hk : k ≠ .other)
    (t : Vox) (ht : t ∈ types) : (after one types cs).lists k t =
      (book one types cs).members.filter fun e => decide (e.fld.kind = k ∧ e.fld.vox = t) :=
  (follows_after one types hn cs).lists k (by revert hk; cases k <;> simp [allKinds]) t ht

/-- C94: `size` is the number of fields given that the group has lists for, `sizeMIP` the number of MIP fields among
them. -/
theorem C94_size (one : X) (types : List Vox) (hn : types.Nodup) (cs : List (Call X R)) :
    size types (after one types cs) = (book one types cs).members.length ∧
    sizeMIP types (after one types cs) = ((book one types cs).members.filter fun e =>
      decide (e.fld.kind = .mipDense ∨ e.fld.kind = .mipSparse)).length := by
  have h := follows_after one types hn cs
  have hcount : ∀ ks : List Kind, ks.Nodup → (∀ k ∈ ks, k ∈ allKinds) → count types ks (after one types cs).lists =
      ((book one types cs).members.filter fun e => decide (e.fld.kind ∈ ks ∧ e.fld.vox ∈ types)).length := by
    intro ks hks hsub
    rw [count_sum, ← sum_ofKind types hn ks hks]
    congr 1
    apply List.map_congr_left
    intro k hk
    congr 1
    apply List.map_congr_left
    intro t ht
    rw [h.lists k (hsub k hk) t ht]
  have hkn : ∀ e ∈ (book one types cs).members, e.fld.kind ≠ .other ∧ e.fld.vox ∈ types := by
    intro e he
    have := h.known e he
    unfold takes at this
    rw [Bool.and_eq_true, decide_eq_true_eq, decide_eq_true_eq] at this
    exact this
  constructor
  · unfold size
    rw [hcount allKinds nodupAll (fun _ h => h), List.filter_eq_self.mpr]
    intro e he
    obtain ⟨a, b⟩ := hkn e he
    rw [decide_eq_true_eq]
    exact ⟨by revert a; cases e.fld.kind <;> simp [allKinds], b⟩
  · unfold sizeMIP
    rw [hcount mipKinds nodupMip (by decide)]
    congr 1
    apply List.filter_congr
    intro e he
    obtain ⟨a, b⟩ := hkn e he
    simp [mipKinds, b]

/-- C94: `load` of a file that cannot be opened returns -1 and changes nothing; otherwise it adds the layers of the
name, of all partitions and of the voxel types of the group, and returns how many of them the group has lists for. -/
theorem C94_load (one : X) (types : List Vox) (hn : types.Nodup) (cs : List (Call X R)) (attr : String) :
    load one types none attr (after one types cs) = (after one types cs, -1) ∧
    ∀ v, (load one types (some v) attr (after one types cs)).2 = (((layersNamed types v attr).filter (takes types)).length : Nat) ∧
      (load one types (some v) attr (after one types cs)).1 =
        after one types (cs ++ [.setup (layersNamed types v attr) (layersNamed types v (attr ++ "_min"))
          (layersNamed types v (attr ++ "_max"))]) := by
  refine ⟨rfl, fun v => ?_⟩
  have e1 : (load one types (some v) attr (after one types cs)).1 =
      after one types (cs ++ [.setup (layersNamed types v attr) (layersNamed types v (attr ++ "_min"))
          (layersNamed types v (attr ++ "_max"))]) := by
    unfold after
    rw [List.foldl_append]
    simp only [load, readAll_eq]
    rfl
  refine ⟨?_, e1⟩
  have e2 : (load one types (some v) attr (after one types cs)).2 =
      ((size types (load one types (some v) attr (after one types cs)).1 : Nat) : Int) - (size types (after one types cs) : Nat) := rfl
  rw [e2, e1, (C94_size one types hn _).1, (C94_size one types hn cs).1]
  have : (book one types (cs ++ [.setup (layersNamed types v attr) (layersNamed types v (attr ++ "_min"))
          (layersNamed types v (attr ++ "_max"))])).members.length =
      (book one types cs).members.length + ((layersNamed types v attr).filter (takes types)).length := by
    unfold book
    rw [List.foldl_append]
    simp only [List.foldl_cons, List.foldl_nil, Book.note, Book.give, List.length_append, List.length_map]
  rw [this]; omega

/-- C94: `fields` gives what the last `setup` or successful `load` was given, whether the group has lists for it or
not. -/
theorem C94_fields (one : X) (types : List Vox) (hn : types.Nodup) (cs : List (Call X R)) :
    (after one types cs).all = (book one types cs).last := (follows_after one types hn cs).last

/-- C94: `hasPrefiltMinMax` says whether some MIP field of minima and some MIP field of maxima were given, loaded or
made. -/
theorem C94_prefiltered (one : X) (types : List Vox) (hn : types.Nodup) (cs : List (Call X R)) :
    (after one types cs).prefilt = ((book one types cs).minima && (book one types cs).maxima) :=
  (follows_after one types hn cs).prefilt

/-! ## Ranges of values -/

open Cont (Box3q)

theorem minmax_append (b : Option Box3q) (fs gs : List Sampler.Source) (hm : AllMeet fs b) (st : Rat × Rat) :
    Sampler.getMinMax (fs ++ gs) b st = (Sampler.getMinMax fs b st).bind fun st => Sampler.getMinMax gs b st := by
  induction fs generalizing st with
  | nil => rfl
  | cons s fs ih =>
    have hm' : AllMeet fs b := by
      rcases hm with hm | hm
      · exact Or.inl hm
      · exact Or.inr fun s hs => hm s (List.mem_cons_of_mem _ hs)
    simp only [List.cons_append, Sampler.getMinMax]
    rw [Option.bind_assoc]
    cases hr : s.region b with
    | none => rfl
    | some r =>
      simp only [Option.bind_some]
      have hne : (b.isSome && !Sampler.boxesMeet s.dw r) = false := by
        rcases hm with hm | hm
        · rw [hm]; rfl
        · rw [hm s List.mem_cons_self r hr]; simp
      rw [hne]
      simp only [Bool.false_eq_true, if_false]
      rw [Option.bind_assoc]
      congr 1
      funext st
      exact ih hm' st

omit [DecidableEq X] in
theorem overLists_minmax (types : List Vox) (src : Entry X R → Sampler.Source) (b : Option Box3q) (l : Lists X R) :
    ∀ (ks : List Kind), (∀ k ∈ ks, ∀ t ∈ types, AllMeet ((l k t).map src) b) → ∀ (st : Rat × Rat),
    overLists types ks l (fun es s => Sampler.getMinMax (es.map src) b s) st =
      Sampler.getMinMax ((ks.flatMap fun k => types.flatMap fun t => l k t).map src) b st := by
  have meet_append : ∀ fs gs : List Sampler.Source, AllMeet fs b → AllMeet gs b → AllMeet (fs ++ gs) b := by
    rintro fs gs (h | h) (h' | h')
    · exact Or.inl h
    · exact Or.inl h
    · exact Or.inl h'
    · refine Or.inr fun s hs => ?_
      rcases List.mem_append.mp hs with hs | hs
      · exact h s hs
      · exact h' s hs
  have inner : ∀ (k : Kind) (ts : List Vox), (∀ t ∈ ts, AllMeet ((l k t).map src) b) →
      AllMeet ((ts.flatMap fun t => l k t).map src) b ∧ ∀ st : Rat × Rat,
      ts.foldlM (fun s t => Sampler.getMinMax ((l k t).map src) b s) st =
        Sampler.getMinMax ((ts.flatMap fun t => l k t).map src) b st := by
    intro k ts
    induction ts with
    | nil => intro _; exact ⟨Or.inr (fun s hs => by simp at hs), fun st => rfl⟩
    | cons t ts ih =>
      intro h
      obtain ⟨m, e⟩ := ih fun t ht => h t (List.mem_cons_of_mem _ ht)
      have ht := h t List.mem_cons_self
      constructor
      · rw [List.flatMap_cons, List.map_append]; exact meet_append _ _ ht m
      · intro st
        rw [List.foldlM_cons, List.flatMap_cons, List.map_append, minmax_append b _ _ ht]
        show (Sampler.getMinMax ((l k t).map src) b st).bind _ = _
        congr 1
        funext st
        exact e st
  intro ks
  induction ks with
  | nil => intro _ st; rfl
  | cons k ks ih =>
    intro h st
    obtain ⟨m, e⟩ := inner k types (h k List.mem_cons_self)
    unfold overLists
    rw [List.foldlM_cons, List.flatMap_cons, List.map_append, minmax_append b _ _ m]
    rw [e st]
    show (Sampler.getMinMax _ b st).bind _ = _
    congr 1
    funext st
    exact ih (fun k hk => h k (List.mem_cons_of_mem _ hk)) st

/-- C94: as long as no minima or no maxima were given or made, the range of the group bounds the value of every voxel
that is looked at, of every field of the group, if all fields meet the bounds; and its ends are such values or were
there before. -/
theorem C94_range (one : X) (types : List Vox) (hn : types.Nodup) (cs : List (Call X R))
    (hp : ((book one types cs).minima && (book one types cs).maxima) = false)
    (src : Entry X R → Sampler.Source) (mip : Entry X R → Sampler.MipSource) (b : Option Box3q)
    (hx : ∀ e ∈ (book one types cs).members, Exact (src e))
    (hm : AllMeet ((book one types cs).members.map src) b) (st st' : Rat × Rat)
    (h : GroupState.getMinMax types src mip (after one types cs) b st = some st') :
    (∀ e ∈ (book one types cs).members, ∃ r, (src e).region b = some r ∧ ∀ v, r.contains v = true →
      ∃ x, (src e).value v = some x ∧ st'.1 ≤ x ∧ x ≤ st'.2) ∧
    (st'.1 = st.1 ∨ ∃ e ∈ (book one types cs).members, ∃ r v, (src e).region b = some r ∧ r.contains v = true ∧
      (src e).value v = some st'.1) ∧
    (st'.2 = st.2 ∨ ∃ e ∈ (book one types cs).members, ∃ r v, (src e).region b = some r ∧ r.contains v = true ∧
      (src e).value v = some st'.2) := by
  have hf := follows_after one types hn cs
  unfold GroupState.getMinMax at h
  rw [hf.prefilt, hp, if_neg (by simp)] at h
  have hmem : ∀ e, e ∈ (allKinds.flatMap fun k => types.flatMap fun t => (after one types cs).lists k t) ↔
      e ∈ (book one types cs).members := by
    intro e
    simp only [List.mem_flatMap]
    constructor
    · rintro ⟨k, hk, t, ht, he⟩
      rw [hf.lists k hk t ht] at he
      exact (List.mem_filter.mp he).1
    · intro he
      have hkn := hf.known e he
      unfold takes at hkn
      rw [Bool.and_eq_true, decide_eq_true_eq, decide_eq_true_eq] at hkn
      have hk : e.fld.kind ∈ allKinds := by
        revert hkn; cases e.fld.kind <;> simp [allKinds]
      refine ⟨e.fld.kind, hk, e.fld.vox, hkn.2, ?_⟩
      rw [hf.lists _ hk _ hkn.2]
      unfold ofKind
      rw [List.mem_filter]
      exact ⟨he, by simp⟩
  have meets : ∀ l : List (Entry X R), (∀ e ∈ l, e ∈ (book one types cs).members) → AllMeet (l.map src) b := by
    intro l hl
    rcases hm with hm | hm
    · exact Or.inl hm
    · refine Or.inr fun s hs => ?_
      obtain ⟨e, he, rfl⟩ := List.mem_map.mp hs
      exact hm _ (List.mem_map_of_mem (hl e he))
  rw [overLists_minmax types src b _ allKinds] at h
  · have hall := meets _ fun e he => (hmem e).mp he
    have hex : ∀ s ∈ (allKinds.flatMap fun k => types.flatMap fun t => (after one types cs).lists k t).map src, Exact s := by
      intro s hs
      obtain ⟨e, he, rfl⟩ := List.mem_map.mp hs
      exact hx e ((hmem e).mp he)
    have key := C61_minmax b _ hex hall st st' h
    refine ⟨fun e he => ?_, ?_, ?_⟩
    · exact key.1 (src e) (List.mem_map_of_mem ((hmem e).mpr he))
    · rcases key.2.2.2.1 with h1 | ⟨s, hs, h1⟩
      · exact Or.inl h1
      · obtain ⟨e, he, rfl⟩ := List.mem_map.mp hs
        exact Or.inr ⟨e, (hmem e).mp he, h1⟩
    · rcases key.2.2.2.2 with h1 | ⟨s, hs, h1⟩
      · exact Or.inl h1
      · obtain ⟨e, he, rfl⟩ := List.mem_map.mp hs
        exact Or.inr ⟨e, (hmem e).mp he, h1⟩
  · intro k hk t ht
    apply meets
    intro e he
    rw [hf.lists k hk t ht] at he
    exact (List.mem_filter.mp he).1

/-- C94: once minima and maxima were given or made, fields that are added without them do not count for the range. -/
theorem C94_range_not_updated (one : X) (types : List Vox) (hn : types.Nodup) (cs : List (Call X R))
    (hp : ((book one types cs).minima && (book one types cs).maxima) = true) (fs : List Fld)
    (src : Entry X R → Sampler.Source) (mip : Entry X R → Sampler.MipSource) (b : Option Box3q) (st : Rat × Rat) :
    GroupState.getMinMax types src mip (after one types (cs ++ [.setup fs [] []])) b st =
      GroupState.getMinMax types src mip (after one types cs) b st := by
  have h1 := C94_prefiltered one types hn cs
  rw [hp] at h1
  have h2 : after one types (cs ++ [.setup fs [] []]) = setup one types fs [] [] (after one types cs) := by
    unfold after; rw [List.foldl_append]; rfl
  rw [h2]
  have h3 : (setup one types fs [] [] (after one types cs)).prefilt = true ∧
      (setup one types fs [] [] (after one types cs)).mins = (after one types cs).mins ∧
      (setup one types fs [] [] (after one types cs)).maxs = (after one types cs).maxs := by
    have gen : ∀ g : Group X R, g.prefilt = true → (setupMinMax one types [] [] g).prefilt = true ∧
        (setupMinMax one types [] [] g).mins = g.mins ∧ (setupMinMax one types [] [] g).maxs = g.maxs := by
      intro g hg
      unfold setupMinMax
      by_cases hc : count types mipKinds g.mins > 0 ∧ count types mipKinds g.maxs > 0
      · simp [hc.1, hc.2]
      · simp [hc, hg]
    exact gen _ h1
  unfold GroupState.getMinMax
  rw [h3.1, h3.2.1, h3.2.2, h1, if_pos rfl, if_pos rfl]

/-! ## Cases -/

theorem nodupScalar : scalarTypes.Nodup := by decide
theorem nodupVector : vectorTypes.Nodup := by decide

/-- Two setups: a dense and an unknown field under one transform, then a sparse field under another. -/
def twoSetups : List (Call Nat Nat) :=
  [.setOsToWs 5, .setup [⟨.dense, .float, 1⟩, ⟨.other, .float, 2⟩, ⟨.dense, .v3f, 3⟩] [] [], .setBounds true, .setOsToWs 0,
   .setRemap (some 7), .setup [⟨.sparse, .half, 4⟩] [] []]

example : (book 0 scalarTypes twoSetups).members =
    [⟨⟨.dense, .float, 1⟩, some 5, true, none⟩, ⟨⟨.sparse, .half, 4⟩, none, true, some 7⟩] := by decide
example : size scalarTypes (after 0 scalarTypes twoSetups) = 2 ∧
    (after 0 scalarTypes twoSetups).lists .dense .float = [⟨⟨.dense, .float, 1⟩, some 5, true, none⟩] := by decide

/-- C94: so `size` may count fields that `fields` does not give, and `fields` may give fields that `size` does not
count. -/
theorem C94_fields_not_members :
    size scalarTypes (after 0 scalarTypes twoSetups) = 2 ∧
    (after 0 scalarTypes twoSetups).all = [⟨.sparse, .half, 4⟩] ∧
    size scalarTypes (after 0 scalarTypes (twoSetups.take 2)) = 1 ∧
    (after 0 scalarTypes (twoSetups.take 2)).all.length = 3 := by decide

/-- A file of two partitions with a layer of density each, and one with its minima. -/
def twoPartitions : FileView :=
  ⟨["a", "b"], fun t name layer =>
    if t = .float ∧ name = "a" ∧ layer = "density" then [(.dense, 1)]
    else if t = .half ∧ name = "b" ∧ layer = "density" then [(.mipSparse, 2)]
    else if t = .half ∧ name = "b" ∧ layer = "density_min" then [(.mipSparse, 3)] else []⟩

example : (load (R := Nat) 0 scalarTypes (some twoPartitions) "density" (after 0 scalarTypes twoSetups)).2 = 2 ∧
    sizeMIP scalarTypes (load (R := Nat) 0 scalarTypes (some twoPartitions) "density" (after 0 scalarTypes twoSetups)).1 = 1 ∧
    (load (R := Nat) 0 scalarTypes (some twoPartitions) "density" (after 0 scalarTypes twoSetups)).1.prefilt = false ∧
    (book (R := Nat) 0 scalarTypes (twoSetups ++ [.load (some twoPartitions) "density"])).minima = true := by decide

/-- A field of one voxel column, whose minima and maxima are made. -/
def madeMinMax : List (Call Nat Nat) := [.setup [⟨.dense, .float, 1⟩] [] [], .makeMinMax fun f mn => if mn then f.id + 10 else f.id + 20]

/-- The first field has the values 0 and 10, the second 100. -/
def groupSource (e : Entry Nat Nat) : Sampler.Source :=
  if e.fld.id = 1 then tenRow else rowSource (fun _ => 100) ⟨⟨0, 0, 0⟩, ⟨1, 0, 0⟩⟩

def groupMip (e : Entry Nat Nat) : Sampler.MipSource :=
  ⟨[⟨rowMap, ⟨⟨0, 0, 0⟩, ⟨0, 0, 0⟩⟩, fun _ => some (if e.fld.id = 11 then 0 else 10)⟩], none, id, id⟩

example : ((book 0 scalarTypes madeMinMax).minima && (book 0 scalarTypes madeMinMax).maxima) = true := by decide
example : ((book 0 scalarTypes twoSetups).minima && (book 0 scalarTypes twoSetups).maxima) = false := by decide
example : GroupState.getMinMax scalarTypes groupSource groupMip (after 0 scalarTypes twoSetups) none (1000, -1000) =
    some (0, 100) := by decide +kernel

/-- C94: so a field with the value 100 that is added after `makeMinMax` is missing from the range; calling `makeMinMax`
for the two fields from the start would have given it. -/
theorem C94_range_stale :
    GroupState.getMinMax scalarTypes groupSource groupMip
      (after 0 scalarTypes (madeMinMax ++ [.setup [⟨.dense, .float, 2⟩] [] []])) none (1000, -1000) = some (0, 10) ∧
    size scalarTypes (after 0 scalarTypes (madeMinMax ++ [.setup [⟨.dense, .float, 2⟩] [] []])) = 2 ∧
    (groupSource ⟨⟨.dense, .float, 2⟩, none, false, none⟩).value ⟨0, 0, 0⟩ = some 100 := by decide +kernel

/-- C94: switching the test against world bounds off does not switch it off for the fields that are there. -/
theorem C94_bounds_stay (one : X) (types : List Vox) (hn : types.Nodup) (cs : List (Call X R)) (k : Kind) (hk : k ≠ .other)
    (t : Vox) (ht : t ∈ types) : ∀ e ∈ (after one types (cs ++ [.setBounds true, .setBounds false])).lists k t,
      e.bounds = true := by
  intro e he
  rw [C94_members one types hn _ k hk t ht] at he
  have := (List.mem_filter.mp he).1
  unfold book at this
  rw [List.foldl_append] at this
  simp only [List.foldl_cons, List.foldl_nil, Book.note] at this
  obtain ⟨e', _, rfl⟩ := List.mem_map.mp this
  rfl

end F3D.Props

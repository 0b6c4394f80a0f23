import Verif.Proofs.Ogawa

/-! The writer invariant: the file is a list of records that represent the document. -/

namespace F3D.Ogawa

/-- The number the slots of group `h` hold: its position, 0 while it is not frozen. -/
def slotOf (gs : List OGroup) (h : Nat) : Nat := ((gs[h]?).bind (·.pos)).getD 0

/-- A slot value represents an item. -/
def SlotOk (sl : Nat → Nat) (rs : List Rec) (s : Nat) : Item → Prop
  | .data bs => bs ≠ [] ∧ ∃ r : Nat, rs[r]? = some (.data bs) ∧ s = posOf rs r ||| emptyData
  | .emptyData => s = emptyData
  | .emptyGroup => s = 0
  | .group h => s = sl h

structure Inv (gs : List OGroup) (d : Doc) (rs : List Rec) : Prop where
  len : gs.length = d.groups.length
  fro : ∀ (g : Nat) (o : OGroup), gs[g]? = some o → d.frozen g = o.pos.isSome
  kidsLen : ∀ (g : Nat) (o : OGroup), gs[g]? = some o → o.kids.length = (d.items g).length
  kids : ∀ (g : Nat) (o : OGroup), gs[g]? = some o → ∀ (i : Nat) s it, o.kids[i]? = some s → (d.items g)[i]? = some it →
    SlotOk (slotOf gs) rs s it
  recd : ∀ (g : Nat) (o : OGroup) p, gs[g]? = some o → o.pos = some p →
    (o.kids = [] ∧ p = 0) ∨ (o.kids ≠ [] ∧ ∃ r : Nat, rs[r]? = some (.group g o.kids) ∧ p = posOf rs r)
  tag : ∀ (r : Nat) g ks, rs[r]? = some (.group g ks) → ∃ o, gs[g]? = some o ∧ o.pos = some (posOf rs r)
  root : ∃ o, gs[0]? = some o ∧ o.parent = none
  nonroot : ∀ (g : Nat) (o : OGroup), gs[g]? = some o → o.parent = none → g = 0
  par : ∀ (g : Nat) (o : OGroup) p i, gs[g]? = some o → o.parent = some (p, i) → p < g ∧ (d.items p)[i]? = some (.group g)
  chi : ∀ (p i h : Nat), (d.items p)[i]? = some (.group h) → ∃ o, gs[h]? = some o ∧ o.parent = some (p, i)

theorem inv_init : Inv [⟨[], none, none⟩] Doc.init [] := by
  have key : ∀ (g : Nat) (o : OGroup), [(⟨[], none, none⟩ : OGroup)][g]? = some o → g = 0 ∧ o = ⟨[], none, none⟩ := by
    intro g o h
    cases g with
    | zero => simpa using h.symm
    | succ g => simp at h
  have hit : ∀ p, Doc.init.items p = [] := by
    intro p
    cases p with
    | zero => rfl
    | succ p => rfl
  constructor
  · rfl
  · intro g o h; obtain ⟨rfl, rfl⟩ := key g o h; rfl
  · intro g o h; obtain ⟨rfl, rfl⟩ := key g o h; rfl
  · intro g o h i s it hs; obtain ⟨rfl, rfl⟩ := key g o h; simp at hs
  · intro g o p h hp; obtain ⟨rfl, rfl⟩ := key g o h; simp at hp
  · intro r g ks h; simp at h
  · exact ⟨_, rfl, rfl⟩
  · intro g o h _; exact (key g o h).1
  · intro g o p i h hp; obtain ⟨rfl, rfl⟩ := key g o h; simp at hp
  · intro p i h hi; simp [hit] at hi

/-! ## Document updates -/

theorem items_eq (d : Doc) (g : Nat) (x) (h : d.groups[g]? = some x) : d.items g = x.1 := by
  simp [Doc.items, h]

theorem items_push (d : Doc) (g j : Nat) (it : Item) (hg : g < d.groups.length) :
    (d.push g it).items j = if j = g then d.items j ++ [it] else d.items j := by
  simp only [Doc.items, Doc.push, List.getElem?_modify]
  by_cases h : j = g
  · subst h
    simp [List.getElem?_eq_getElem hg]
  · have h' : ¬ g = j := fun e => h e.symm
    simp only [h, h', if_false]
    cases d.groups[j]? <;> simp

theorem frozen_push (d : Doc) (g j : Nat) (it : Item) : (d.push g it).frozen j = d.frozen j := by
  simp only [Doc.frozen, Doc.push, List.getElem?_modify]
  by_cases h : g = j
  · simp only [h, if_true]; cases d.groups[j]? <;> simp
  · simp only [h, if_false]; cases d.groups[j]? <;> simp

theorem items_of_ge (d : Doc) (g : Nat) (h : d.groups.length ≤ g) : d.items g = [] := by
  simp [Doc.items, List.getElem?_eq_none h]

theorem lt_of_getElem? {α} {l : List α} {i : Nat} {x : α} (h : l[i]? = some x) : i < l.length := by
  rcases Nat.lt_or_ge i l.length with h1 | h1
  · exact h1
  · rw [List.getElem?_eq_none h1] at h; simp at h

theorem posOf_append_some (rs x : List Rec) (r : Nat) (y : Rec) (h : rs[r]? = some y) : posOf (rs ++ x) r = posOf rs r :=
  posOf_append rs x r (by have := lt_of_getElem? h; omega)

theorem getElem?_append_some {α} {l m : List α} {i : Nat} {x : α} (h : l[i]? = some x) : (l ++ m)[i]? = some x := by
  rw [List.getElem?_append_left (lt_of_getElem? h)]; exact h

theorem SlotOk.append {sl rs s it} (x : List Rec) (h : SlotOk sl rs s it) : SlotOk sl (rs ++ x) s it := by
  cases it with
  | data bs =>
    obtain ⟨h0, r, h1, h2⟩ := h
    exact ⟨h0, r, getElem?_append_some h1, by rw [posOf_append_some _ _ _ _ h1]; exact h2⟩
  | emptyData => exact h
  | emptyGroup => exact h
  | group g => exact h

/-- A data record is appended. -/
theorem Inv.appendData {gs d rs} (hI : Inv gs d rs) (bs : List UInt8) : Inv gs d (rs ++ [.data bs]) := by
  refine { hI with kids := ?_, recd := ?_, tag := ?_ }
  · intro g o h i s it h1 h2
    exact (hI.kids g o h i s it h1 h2).append _
  · intro g o p h hp
    rcases hI.recd g o p h hp with h1 | ⟨h0, r, h1, h2⟩
    · exact Or.inl h1
    · exact Or.inr ⟨h0, r, getElem?_append_some h1, by rw [posOf_append_some _ _ _ _ h1]; exact h2⟩
  · intro r g ks h
    rw [List.getElem?_append] at h
    split at h
    · obtain ⟨o, h1, h2⟩ := hI.tag r g ks h
      exact ⟨o, h1, by rw [posOf_append_some _ _ _ _ h]; exact h2⟩
    · rename_i hr
      generalize hk : r - rs.length = k at h
      cases k with
      | zero => simp at h
      | succ k => simp at h

theorem slotOf_push (gs : List OGroup) (g h s : Nat) :
    slotOf (gs.modify g (fun o => { o with kids := o.kids ++ [s] })) h = slotOf gs h := by
  simp only [slotOf, List.getElem?_modify]
  by_cases e : g = h
  · simp only [e, if_true]; cases gs[h]? <;> simp
  · simp only [e, if_false]; cases gs[h]? <;> simp

theorem getElem?_push {gs : List OGroup} {g j s : Nat} {o : OGroup}
    (h : (gs.modify g (fun o => { o with kids := o.kids ++ [s] }))[j]? = some o) :
    ∃ o', gs[j]? = some o' ∧ o.parent = o'.parent ∧ o.pos = o'.pos ∧
      o.kids = if j = g then o'.kids ++ [s] else o'.kids := by
  rw [List.getElem?_modify] at h
  by_cases e : g = j
  · subst e
    rcases hg : gs[g]? with _ | o'
    · simp [hg] at h
    · simp only [hg, if_true, Option.map_eq_map, Option.map_some, Option.some.injEq] at h
      subst h
      exact ⟨o', rfl, rfl, rfl, by simp⟩
  · have e' : ¬ j = g := fun x => e x.symm
    simp only [e, if_false] at h
    refine ⟨o, ?_, rfl, rfl, by simp [e']⟩
    rcases hg : gs[j]? with _ | o'
    · simp [hg] at h
    · simpa [hg] using h

theorem getElem?_push_of {gs : List OGroup} {g j : Nat} (s : Nat) {o : OGroup} (h : gs[j]? = some o) :
    (gs.modify g (fun o => { o with kids := o.kids ++ [s] }))[j]? =
      some { o with kids := if j = g then o.kids ++ [s] else o.kids } := by
  rw [List.getElem?_modify, h]
  by_cases e : g = j
  · subst e; simp
  · have e' : ¬ j = g := fun x => e x.symm
    simp [e, e']

/-- A child other than a new group is pushed on an open group. -/
theorem Inv.push {gs d rs} (hI : Inv gs d rs) (g s : Nat) (it : Item) (o : OGroup) (hg : gs[g]? = some o)
    (ho : o.pos = none) (hs : SlotOk (slotOf gs) rs s it) (hng : ∀ h, it ≠ .group h) :
    Inv (gs.modify g (fun o => { o with kids := o.kids ++ [s] })) (d.push g it) rs := by
  have hlt : g < d.groups.length := by rw [← hI.len]; exact lt_of_getElem? hg
  have hit := fun j => items_push d g j it hlt
  constructor
  · simp [Doc.push, hI.len]
  · intro j o' h
    obtain ⟨o'', h1, h2, h3, h4⟩ := getElem?_push h
    rw [frozen_push, hI.fro j o'' h1, h3]
  · intro j o' h
    obtain ⟨o'', h1, h2, h3, h4⟩ := getElem?_push h
    have := hI.kidsLen j o'' h1
    rw [hit, h4]
    split <;> simp [this]
  · intro j o' h i s' it' e1 e2
    obtain ⟨o'', h1, h2, h3, h4⟩ := getElem?_push h
    rw [funext (slotOf_push gs g · s)]
    have hl := hI.kidsLen j o'' h1
    rw [hit] at e2
    rw [h4] at e1
    by_cases hj : j = g
    · simp only [hj, if_true] at e1 e2
      rw [List.getElem?_append] at e1 e2
      by_cases hi : i < o''.kids.length
      · rw [if_pos hi] at e1
        rw [if_pos (by rw [← hj, ← hl]; exact hi)] at e2
        exact hI.kids j o'' h1 i s' it' e1 (by rw [hj]; exact e2)
      · rw [if_neg hi] at e1
        rw [if_neg (by rw [← hj, ← hl]; exact hi)] at e2
        generalize hk : i - o''.kids.length = k at e1
        rw [← hj, ← hl, hk] at e2
        cases k with
        | zero => simp at e1 e2; subst e1; subst e2; exact hs
        | succ k => simp at e1
    · simp only [hj, if_false] at e1 e2
      exact hI.kids j o'' h1 i s' it' e1 e2
  · intro j o' p h hp
    obtain ⟨o'', h1, h2, h3, h4⟩ := getElem?_push h
    have hj : j ≠ g := by
      intro e; subst e
      rw [hg] at h1; simp only [Option.some.injEq] at h1; subst h1
      rw [h3, ho] at hp; simp at hp
    rw [h4, if_neg hj]
    exact hI.recd j o'' p h1 (by rw [← h3]; exact hp)
  · intro r j ks h
    obtain ⟨o', h1, h2⟩ := hI.tag r j ks h
    exact ⟨_, getElem?_push_of s h1, h2⟩
  · obtain ⟨o', h1, h2⟩ := hI.root
    exact ⟨_, getElem?_push_of s h1, h2⟩
  · intro j o' h hp
    obtain ⟨o'', h1, h2, h3, h4⟩ := getElem?_push h
    exact hI.nonroot j o'' h1 (by rw [← h2]; exact hp)
  · intro j o' p i h hp
    obtain ⟨o'', h1, h2, h3, h4⟩ := getElem?_push h
    obtain ⟨a, b⟩ := hI.par j o'' p i h1 (by rw [← h2]; exact hp)
    refine ⟨a, ?_⟩
    rw [hit]
    split
    · exact getElem?_append_some b
    · exact b
  · intro p i h hi
    rw [hit] at hi
    have : (d.items p)[i]? = some (.group h) := by
      by_cases hp : p = g
      · simp only [hp, if_true] at hi
        rw [List.getElem?_append] at hi
        split at hi
        · rw [hp]; exact hi
        · generalize hk : i - (d.items g).length = k at hi
          cases k with
          | zero => simp at hi; exact absurd hi (hng h)
          | succ k => simp at hi
      · simpa [hp] using hi
    obtain ⟨o', h1, h2⟩ := hI.chi p i h this
    exact ⟨_, getElem?_push_of s h1, h2⟩

theorem slotOf_snoc (gs : List OGroup) (kids par h) : slotOf (gs ++ [⟨kids, par, none⟩]) h = slotOf gs h := by
  simp only [slotOf, List.getElem?_append]
  split
  · rfl
  · rename_i hh
    rw [List.getElem?_eq_none (by omega : gs.length ≤ h)]
    generalize h - gs.length = k
    cases k <;> simp

/-- A new group is created in an open group. -/
theorem Inv.newGroup {gs d rs} (hI : Inv gs d rs) (g : Nat) (o : OGroup) (hg : gs[g]? = some o) (ho : o.pos = none) :
    Inv (gs.modify g (fun o => { o with kids := o.kids ++ [0] }) ++ [⟨[], some (g, o.kids.length), none⟩])
      ⟨(d.push g (.group d.groups.length)).groups ++ [([], false)]⟩ rs := by
  have hlt : g < gs.length := lt_of_getElem? hg
  have hlen := hI.len
  -- the groups and the document after the call
  generalize hgs' : gs.modify g (fun o => { o with kids := o.kids ++ [0] }) ++ [(⟨[], some (g, o.kids.length), none⟩ : OGroup)] = gs'
  generalize hd' : (⟨(d.push g (.group d.groups.length)).groups ++ [([], false)]⟩ : Doc) = d'
  have G : ∀ (j : Nat) o', gs'[j]? = some o' → (j < gs.length ∧ ∃ o'', gs[j]? = some o'' ∧ o'.parent = o''.parent ∧
      o'.pos = o''.pos ∧ o'.kids = if j = g then o''.kids ++ [0] else o''.kids) ∨
      (j = gs.length ∧ o' = ⟨[], some (g, o.kids.length), none⟩) := by
    intro j o' h
    subst hgs'
    rw [List.getElem?_append] at h
    split at h
    · obtain ⟨o'', h1, h2⟩ := getElem?_push h
      exact Or.inl ⟨lt_of_getElem? h1, o'', h1, h2⟩
    · rename_i hj
      simp only [List.length_modify] at h hj
      generalize hk : j - gs.length = k at h
      cases k with
      | zero => simp at h; exact Or.inr ⟨by omega, h.symm⟩
      | succ k => simp at h
  have G1 : ∀ (j : Nat) o', gs[j]? = some o' → gs'[j]? = some { o' with kids := if j = g then o'.kids ++ [0] else o'.kids } := by
    intro j o' h
    subst hgs'
    exact getElem?_append_some (getElem?_push_of 0 h)
  have G2 : gs'[gs.length]? = some ⟨[], some (g, o.kids.length), none⟩ := by
    subst hgs'
    rw [List.getElem?_append_right (by simp)]
    simp
  have sl : slotOf gs' = slotOf gs := by
    subst hgs'
    funext h
    rw [slotOf_snoc, slotOf_push]
  have it : ∀ j, d'.items j = if j = g then d.items j ++ [.group gs.length] else d.items j := by
    intro j
    subst hd'
    rw [hlen, ← items_push d g j (.group d.groups.length) (by omega)]
    simp only [Doc.items]
    rw [List.getElem?_append]
    split
    · rfl
    · rename_i hj
      rw [List.getElem?_eq_none (by omega : (d.push g (.group d.groups.length)).groups.length ≤ j)]
      generalize j - (d.push g (.group d.groups.length)).groups.length = k
      cases k <;> simp
  have fr : ∀ j, d'.frozen j = d.frozen j := by
    intro j
    subst hd'
    rw [← frozen_push d g j (.group d.groups.length)]
    simp only [Doc.frozen]
    rw [List.getElem?_append]
    split
    · rfl
    · rename_i hj
      rw [List.getElem?_eq_none (by omega : (d.push g (.group d.groups.length)).groups.length ≤ j)]
      generalize j - (d.push g (.group d.groups.length)).groups.length = k
      cases k <;> simp
  have itnew : d.items gs.length = [] := items_of_ge d _ (by omega)
  have frnew : d.frozen gs.length = false := by
    simp only [Doc.frozen]; rw [List.getElem?_eq_none (by omega)]; rfl
  constructor
  · subst hgs' hd'; simp [Doc.push, hlen]
  · intro j o' h
    rw [fr]
    rcases G j o' h with ⟨_, o'', h1, h2, h3, h4⟩ | ⟨rfl, rfl⟩
    · rw [hI.fro j o'' h1, h3]
    · rw [frnew]; rfl
  · intro j o' h
    rw [it]
    rcases G j o' h with ⟨_, o'', h1, h2, h3, h4⟩ | ⟨rfl, rfl⟩
    · have := hI.kidsLen j o'' h1
      rw [h4]; split <;> simp [this]
    · rw [if_neg (by omega), itnew]; rfl
  · intro j o' h i s' it' e1 e2
    rw [it] at e2
    rcases G j o' h with ⟨_, o'', h1, h2, h3, h4⟩ | ⟨rfl, rfl⟩
    · rw [sl]
      have hl := hI.kidsLen j o'' h1
      rw [h4] at e1
      by_cases hj : j = g
      · simp only [hj, if_true] at e1 e2
        rw [List.getElem?_append] at e1 e2
        by_cases hi : i < o''.kids.length
        · rw [if_pos hi] at e1
          rw [if_pos (by rw [← hj, ← hl]; exact hi)] at e2
          exact hI.kids j o'' h1 i s' it' e1 (by rw [hj]; exact e2)
        · rw [if_neg hi] at e1
          rw [if_neg (by rw [← hj, ← hl]; exact hi)] at e2
          generalize hk : i - o''.kids.length = k at e1
          rw [← hj, ← hl, hk] at e2
          cases k with
          | zero =>
            simp at e1 e2; subst e1; subst e2
            simp [SlotOk, slotOf]
          | succ k => simp at e1
      · simp only [hj, if_false] at e1 e2
        exact hI.kids j o'' h1 i s' it' e1 e2
    · simp at e1
  · intro j o' p h hp
    rcases G j o' h with ⟨_, o'', h1, h2, h3, h4⟩ | ⟨rfl, rfl⟩
    · have hj : j ≠ g := by
        intro e; subst e
        rw [hg] at h1; simp only [Option.some.injEq] at h1; subst h1
        rw [h3, ho] at hp; simp at hp
      rw [h4, if_neg hj]
      exact hI.recd j o'' p h1 (by rw [← h3]; exact hp)
    · simp at hp
  · intro r j ks h
    obtain ⟨o', h1, h2⟩ := hI.tag r j ks h
    exact ⟨_, G1 j o' h1, h2⟩
  · obtain ⟨o', h1, h2⟩ := hI.root
    exact ⟨_, G1 _ _ h1, h2⟩
  · intro j o' h hp
    rcases G j o' h with ⟨_, o'', h1, h2, h3, h4⟩ | ⟨rfl, rfl⟩
    · exact hI.nonroot j o'' h1 (by rw [← h2]; exact hp)
    · simp at hp
  · intro j o' p i h hp
    rw [it]
    rcases G j o' h with ⟨_, o'', h1, h2, h3, h4⟩ | ⟨rfl, rfl⟩
    · obtain ⟨a, b⟩ := hI.par j o'' p i h1 (by rw [← h2]; exact hp)
      refine ⟨a, ?_⟩
      split
      · exact getElem?_append_some b
      · exact b
    · simp only [Option.some.injEq, Prod.mk.injEq] at hp
      obtain ⟨rfl, rfl⟩ := hp
      refine ⟨hlt, ?_⟩
      rw [if_pos rfl, hI.kidsLen g o hg]
      simp
  · intro p i h hi
    rw [it] at hi
    by_cases hp : p = g
    · simp only [hp, if_true] at hi
      rw [List.getElem?_append] at hi
      split at hi
      · obtain ⟨o', h1, h2⟩ := hI.chi p i h (by rw [hp]; exact hi)
        exact ⟨_, G1 _ _ h1, h2⟩
      · generalize hk : i - (d.items g).length = k at hi
        cases k with
        | zero =>
          simp at hi; subst hi
          refine ⟨_, G2, ?_⟩
          have := hI.kidsLen g o hg
          simp only [Option.some.injEq, Prod.mk.injEq]
          omega
        | succ k => simp at hi
    · simp only [hp, if_false] at hi
      obtain ⟨o', h1, h2⟩ := hI.chi p i h hi
      exact ⟨_, G1 _ _ h1, h2⟩

/-! ## Freezing -/

/-- The record of group `p` gets a new slot value. -/
def patchRec (par : Option (Nat × Nat)) (v : Nat) : Rec → Rec
  | .data bs => .data bs
  | .group q ks => match par with
    | some (p, i) => if q = p then .group q (ks.set i v) else .group q ks
    | none => .group q ks

theorem patchRec_len (par v x) : (patchRec par v x).enc.length = x.enc.length := by
  cases x with
  | data bs => rfl
  | group q ks =>
    cases par with
    | none => rfl
    | some pi =>
      simp only [patchRec]
      split
      · simp only [Rec.enc, List.length_append, flatMap_le64_length, List.length_set, le64_length]
      · rfl

theorem posOf_map (f : Rec → Rec) (hf : ∀ x, (f x).enc.length = x.enc.length) (rs r) : posOf (rs.map f) r = posOf rs r := by
  unfold posOf
  congr 1
  rw [← List.map_take]
  generalize rs.take r = l
  induction l with
  | nil => rfl
  | cons a l ih => simp only [List.map_cons, List.flatMap_cons, List.length_append, hf, ih]

def patchKids (par : Option (Nat × Nat)) (v j : Nat) (ks : List Nat) : List Nat :=
  match par with
  | some (p, i) => if j = p then ks.set i v else ks
  | none => ks

theorem patchRec_group (par v q ks) : patchRec par v (.group q ks) = .group q (patchKids par v q ks) := by
  cases par with
  | none => rfl
  | some pi => simp only [patchRec, patchKids]; split <;> rfl

theorem patchKids_length (par v j ks) : (patchKids par v j ks).length = ks.length := by
  cases par with
  | none => rfl
  | some pi => simp only [patchKids]; split <;> simp

theorem patchKids_nil (par v j ks) : patchKids par v j ks = [] ↔ ks = [] := by
  rw [← List.length_eq_zero_iff, patchKids_length, List.length_eq_zero_iff]

theorem items_freeze (d : Doc) (g j : Nat) : (d.step (.freeze g)).items j = d.items j := by
  simp only [Doc.items, Doc.step, List.getElem?_modify]
  by_cases h : g = j
  · simp only [h, if_true]; cases d.groups[j]? <;> simp
  · simp only [h, if_false]; cases d.groups[j]? <;> simp

theorem frozen_freeze (d : Doc) (g j : Nat) (hg : g < d.groups.length) :
    (d.step (.freeze g)).frozen j = if j = g then true else d.frozen j := by
  simp only [Doc.frozen, Doc.step, List.getElem?_modify]
  by_cases h : j = g
  · subst h; simp [List.getElem?_eq_getElem hg]
  · have h' : ¬ g = j := fun e => h e.symm
    simp only [h, h', if_false]; cases d.groups[j]? <;> simp

/-- The groups after freezing `g` at position `v`. -/
theorem Inv.freeze {gs d rs} (hI : Inv gs d rs) (g v : Nat) (o : OGroup) (hg : gs[g]? = some o) (ho : o.pos = none)
    (rs1 : List Rec) (hrs : (o.kids = [] ∧ v = 0 ∧ rs1 = rs) ∨
      (o.kids ≠ [] ∧ v = posOf rs rs.length ∧ rs1 = rs ++ [.group g o.kids]))
    (gs' : List OGroup) (hlen' : gs'.length = gs.length)
    (G : ∀ j : Nat, gs'[j]? = (gs[j]?).map fun x =>
      ⟨patchKids o.parent v j x.kids, x.parent, if j = g then some v else x.pos⟩) :
    Inv gs' (d.step (.freeze g)) (rs1.map (patchRec o.parent v)) := by
  have hlt : g < gs.length := lt_of_getElem? hg
  have hlt' : g < d.groups.length := by rw [← hI.len]; exact hlt
  generalize hpar : o.parent = par at *
  have hit := items_freeze d g
  have hfr := fun j => frozen_freeze d g j hlt'
  have hpos := fun r => posOf_map (patchRec par v) (patchRec_len par v) rs1 r
  have hpg : ∀ p i, par = some (p, i) → p < g ∧ (d.items p)[i]? = some (.group g) := by
    intro p i h; exact hI.par g o p i hg (by rw [hpar]; exact h)
  -- records kept
  have hkeep : ∀ (r : Nat) x, rs[r]? = some x → rs1[r]? = some x ∧ posOf rs1 r = posOf rs r := by
    intro r x h
    rcases hrs with ⟨-, -, rfl⟩ | ⟨-, -, rfl⟩
    · exact ⟨h, rfl⟩
    · exact ⟨getElem?_append_some h, posOf_append_some _ _ _ _ h⟩
  have Gx : ∀ (j : Nat) o', gs'[j]? = some o' → ∃ x, gs[j]? = some x ∧ o'.kids = patchKids par v j x.kids ∧
      o'.parent = x.parent ∧ o'.pos = if j = g then some v else x.pos := by
    intro j o' h
    rw [G] at h
    rcases hx : gs[j]? with _ | x
    · simp [hx] at h
    · simp only [hx, Option.map_some, Option.some.injEq] at h
      subst h
      exact ⟨x, rfl, rfl, rfl, rfl⟩
  have G1 : ∀ (j : Nat) x, gs[j]? = some x → gs'[j]? = some ⟨patchKids par v j x.kids, x.parent, if j = g then some v else x.pos⟩ := by
    intro j x h; rw [G, h]; rfl
  have sl : ∀ h, slotOf gs' h = if h = g then v else slotOf gs h := by
    intro h
    simp only [slotOf, G]
    by_cases e : h = g
    · subst e; simp [hg]
    · simp only [e, if_false]
      cases gs[h]? <;> simp
  constructor
  · rw [hlen', hI.len]; simp [Doc.step]
  · intro j o' h
    obtain ⟨x, h1, h2, h3, h4⟩ := Gx j o' h
    rw [hfr, h4, hI.fro j x h1]
    split <;> rfl
  · intro j o' h
    obtain ⟨x, h1, h2, h3, h4⟩ := Gx j o' h
    rw [hit, h2, patchKids_length, hI.kidsLen j x h1]
  · intro j o' h i s it e1 e2
    obtain ⟨x, h1, h2, h3, h4⟩ := Gx j o' h
    rw [hit] at e2
    rw [h2] at e1
    -- the old value of the slot
    have hi : i < x.kids.length := by rw [← patchKids_length par v j x.kids]; exact lt_of_getElem? e1
    have hold : x.kids[i]? = some x.kids[i] := List.getElem?_eq_getElem hi
    have hok := hI.kids j x h1 i _ it hold e2
    have hs : s = x.kids[i] ∨ (par = some (j, i) ∧ s = v) := by
      cases hp : par with
      | none => rw [hp] at e1; simp only [patchKids, hold, Option.some.injEq] at e1; exact Or.inl e1.symm
      | some pi =>
        obtain ⟨p, i'⟩ := pi
        rw [hp] at e1
        simp only [patchKids] at e1
        by_cases hj : j = p
        · rw [if_pos hj, List.getElem?_set] at e1
          by_cases hii : i' = i
          · subst hii hj
            simp only [if_true, if_pos hi, Option.some.injEq] at e1
            exact Or.inr ⟨rfl, e1.symm⟩
          · simp only [hii, if_false, hold, Option.some.injEq] at e1
            exact Or.inl e1.symm
        · simp only [hj, if_false, hold, Option.some.injEq] at e1
          exact Or.inl e1.symm
    rcases hs with rfl | ⟨hp, rfl⟩
    · cases it with
      | data bs =>
        obtain ⟨h0, r, a, b⟩ := hok
        refine ⟨h0, r, ?_, ?_⟩
        · rw [List.getElem?_map, (hkeep r _ a).1]; rfl
        · rw [hpos, (hkeep r _ a).2]; exact b
      | emptyData => exact hok
      | emptyGroup => exact hok
      | group k =>
        show _ = slotOf gs' k
        rw [sl]
        by_cases hk : k = g
        · subst hk
          -- the only slot of `g` is the patched one
          obtain ⟨o2, a, b⟩ := hI.chi j i k e2
          rw [hg] at a; simp only [Option.some.injEq] at a; subst a
          rw [hpar] at b; subst b
          simp only [patchKids, if_true, List.getElem?_set, if_pos hi, Option.some.injEq] at e1
          rw [if_pos rfl]; exact e1.symm
        · rw [if_neg hk]; exact hok
    · obtain ⟨-, b⟩ := hpg j i hp
      rw [b] at e2; simp only [Option.some.injEq] at e2; subst e2
      show _ = slotOf gs' g
      rw [sl, if_pos rfl]
  · intro j o' p h hp
    obtain ⟨x, h1, h2, h3, h4⟩ := Gx j o' h
    rw [h2, patchKids_nil]
    by_cases hj : j = g
    · subst hj
      rw [hg] at h1; simp only [Option.some.injEq] at h1; subst h1
      rw [h4] at hp; simp only [if_true, Option.some.injEq] at hp; subst hp
      rcases hrs with ⟨a, b, c⟩ | ⟨a, b, c⟩
      · exact Or.inl ⟨a, b⟩
      · refine Or.inr ⟨fun e => a ((patchKids_nil ..).1 e), rs.length, ?_, ?_⟩
        · rw [List.getElem?_map, c]
          simp [patchRec_group]
        · rw [hpos, c, posOf_append _ _ _ (Nat.le_refl _)]; exact b
    · rw [h4, if_neg hj] at hp
      rcases hI.recd j x p h1 hp with a | ⟨a, r, b, c⟩
      · exact Or.inl a
      · refine Or.inr ⟨fun e => a ((patchKids_nil ..).1 e), r, ?_, ?_⟩
        · rw [List.getElem?_map, (hkeep r _ b).1, Option.map_some, patchRec_group]
        · rw [hpos, (hkeep r _ b).2]; exact c
  · intro r j ks h
    rw [List.getElem?_map] at h
    rcases hx : rs1[r]? with _ | x
    · simp [hx] at h
    · rw [hx, Option.map_some] at h
      rw [hpos]
      have hxg : ∃ ks', x = .group j ks' := by
        cases x with
        | data bs => simp [patchRec] at h
        | group q ks' => rw [patchRec_group] at h; simp at h; exact ⟨ks', by rw [h.1]⟩
      obtain ⟨ks', rfl⟩ := hxg
      -- an old record or the new one
      have hc : (∃ y, rs[r]? = some y ∧ y = .group j ks') ∨ (j = g ∧ posOf rs1 r = v) := by
        rcases hrs with ⟨a, b, c⟩ | ⟨a, b, c⟩
        · subst c; exact Or.inl ⟨_, hx, rfl⟩
        · rw [c, List.getElem?_append] at hx
          split at hx
          · exact Or.inl ⟨_, hx, rfl⟩
          · rename_i hr
            generalize hk : r - rs.length = k at hx
            cases k with
            | zero =>
              simp at hx
              have : r = rs.length := by omega
              subst this
              exact Or.inr ⟨hx.1.symm, by rw [c, posOf_append _ _ _ (Nat.le_refl _), b]⟩
            | succ k => simp at hx
      rcases hc with ⟨y, hy, rfl⟩ | ⟨rfl, hv⟩
      · obtain ⟨o2, a, b⟩ := hI.tag r j ks' hy
        refine ⟨_, G1 j o2 a, ?_⟩
        have hj : j ≠ g := by
          intro e; subst e; rw [hg] at a; simp only [Option.some.injEq] at a; subst a; rw [ho] at b; simp at b
        rw [if_neg hj, (hkeep r _ hy).2]; exact b
      · exact ⟨_, G1 _ _ hg, by simp [hv]⟩
  · obtain ⟨o', h1, h2⟩ := hI.root
    exact ⟨_, G1 _ _ h1, h2⟩
  · intro j o' h hp
    obtain ⟨x, h1, h2, h3, h4⟩ := Gx j o' h
    exact hI.nonroot j x h1 (by rw [← h3]; exact hp)
  · intro j o' p i h hp
    obtain ⟨x, h1, h2, h3, h4⟩ := Gx j o' h
    rw [hit]
    exact hI.par j x p i h1 (by rw [← h3]; exact hp)
  · intro p i h hi
    rw [hit] at hi
    obtain ⟨o', h1, h2⟩ := hI.chi p i h hi
    exact ⟨_, G1 _ _ h1, h2⟩

/-! ## Calls -/

def flagOf (w : Writer) : UInt8 := if w.closed then 255 else 0

/-- The file represents the document. -/
def Rep (w : Writer) (d : Doc) : Prop :=
  ∃ rs, Inv w.groups d rs ∧ w.file = layout (flagOf w) (slotOf w.groups 0) rs

theorem rep_init : Rep Writer.init Doc.init := ⟨[], inv_init, rfl⟩

theorem isOpen_iff (w : Writer) (g : Nat) : w.isOpen g = true ↔ ∃ o, w.groups[g]? = some o ∧ o.pos = none := by
  unfold Writer.isOpen
  rcases w.groups[g]? with _ | o
  · simp
  · simp

theorem docOpen_iff {gs d rs} (hI : Inv gs d rs) (g : Nat) : d.isOpen g = true ↔ ∃ o, gs[g]? = some o ∧ o.pos = none := by
  unfold Doc.isOpen
  rcases hg : gs[g]? with _ | o
  · have : gs.length ≤ g := by
      rcases Nat.lt_or_ge g gs.length with h | h
      · rw [List.getElem?_eq_getElem h] at hg; simp at hg
      · exact h
    rw [List.getElem?_eq_none (by rw [← hI.len]; exact this)]
    simp
  · have hlt : g < d.groups.length := by rw [← hI.len]; exact lt_of_getElem? hg
    have := hI.fro g o hg
    simp only [Doc.frozen, List.getElem?_eq_getElem hlt, Option.map_some, Option.getD_some] at this
    rw [List.getElem?_eq_getElem hlt]
    simp [this]

theorem open_eq {w : Writer} {d rs} (hI : Inv w.groups d rs) (g : Nat) : w.isOpen g = d.isOpen g := by
  rw [Bool.eq_iff_iff, isOpen_iff, docOpen_iff hI]

theorem rep_push {w : Writer} {d} (h : Rep w d) (g s : Nat) (it : Item) (ho : w.isOpen g = true)
    (hs : s = emptyData ∧ it = .emptyData ∨ s = 0 ∧ it = .emptyGroup) : Rep (w.pushKid g s) (d.push g it) := by
  obtain ⟨rs, hI, hf⟩ := h
  obtain ⟨o, hg, hp⟩ := (isOpen_iff w g).1 ho
  refine ⟨rs, hI.push g s it o hg hp ?_ ?_, ?_⟩
  · rcases hs with ⟨rfl, rfl⟩ | ⟨rfl, rfl⟩ <;> rfl
  · rcases hs with ⟨rfl, rfl⟩ | ⟨rfl, rfl⟩ <;> simp
  · simp only [Writer.pushKid]
    rw [slotOf_push]; exact hf

theorem append_file (w : Writer) (bs) : (w.append bs).file = w.file ++ bs := by
  simp [Writer.append, Writer.emit, writeAt_end]

theorem append_groups (w : Writer) (bs) : (w.append bs).groups = w.groups := rfl
theorem append_closed (w : Writer) (bs) : (w.append bs).closed = w.closed := rfl

theorem rep_addData {w : Writer} {d} (h : Rep w d) (g : Nat) (bs : List UInt8) (hb : bs ≠ []) :
    Rep (w.addData g bs) (d.step (.addData g bs)) := by
  obtain ⟨rs, hI, hf⟩ := h
  simp only [Writer.addData, Doc.step, ← open_eq hI g]
  by_cases ho : w.isOpen g = true
  · rw [if_pos ho, if_pos ho]
    have hl : bs.length ≠ 0 := by simpa using hb
    rw [if_neg hl]
    obtain ⟨o, hg, hp⟩ := (isOpen_iff w g).1 ho
    have hpos : w.file.length = posOf (rs ++ [.data bs]) rs.length := by
      rw [hf, layout_length, posOf_append _ _ _ (Nat.le_refl _)]
    refine ⟨rs ++ [.data bs], ?_, ?_⟩
    · exact (hI.appendData bs).push g _ (.data bs) o hg hp ⟨hb, rs.length, by simp, by rw [hpos]⟩ (by simp)
    · simp only [Writer.pushKid, slotOf_push, append_groups, append_file, hf, ← layout_append, flagOf, append_closed]
      simp [Rec.enc]
  · rw [if_neg ho, if_neg ho]; exact ⟨rs, hI, hf⟩

theorem rep_addGroup {w : Writer} {d} (h : Rep w d) (g : Nat) : Rep (w.addGroup g) (d.step (.addGroup g)) := by
  obtain ⟨rs, hI, hf⟩ := h
  simp only [Writer.addGroup, Doc.step, ← open_eq hI g]
  by_cases ho : w.isOpen g = true
  · rw [if_pos ho, if_pos ho]
    obtain ⟨o, hg, hp⟩ := (isOpen_iff w g).1 ho
    refine ⟨rs, ?_, ?_⟩
    · have := hI.newGroup g o hg hp
      simp only [Writer.pushKid, hg]
      exact this
    · simp only [Writer.pushKid, slotOf_snoc, slotOf_push]
      exact hf
  · rw [if_neg ho, if_neg ho]; exact ⟨rs, hI, hf⟩

theorem modify_eq_self {α} (l : List α) (g : Nat) (f : α → α) (h : ∀ x, l[g]? = some x → f x = x) : l.modify g f = l := by
  apply List.ext_getElem?
  intro i
  rw [List.getElem?_modify]
  by_cases e : g = i
  · subst e
    rcases hx : l[g]? with _ | x
    · simp
    · simp [h x hx]
  · simp only [e, if_false]
    cases l[i]? <;> rfl

/-- The groups after `freeze`. -/
theorem freeze_groups (gs : List OGroup) (g v : Nat) (par : Option (Nat × Nat)) (gs1 gs' : List OGroup)
    (h1 : gs1 = gs.modify g (fun o => { o with pos := some v }))
    (h2 : gs' = match par with
      | none => gs1
      | some (p, i) => gs1.modify p (fun o => { o with kids := o.kids.set i v })) :
    gs'.length = gs.length ∧ ∀ j : Nat, gs'[j]? = (gs[j]?).map fun x =>
      ⟨patchKids par v j x.kids, x.parent, if j = g then some v else x.pos⟩ := by
  have e1 : ∀ j : Nat, gs1[j]? = (gs[j]?).map fun x => ⟨x.kids, x.parent, if j = g then some v else x.pos⟩ := by
    intro j
    rw [h1, List.getElem?_modify]
    rcases gs[j]? with _ | x
    · simp
    · by_cases e : g = j
      · subst e; simp
      · have e' : ¬ j = g := fun x => e x.symm
        simp [e, e']
  cases par with
  | none =>
    subst h2
    exact ⟨by simp [h1], fun j => by rw [e1]; rfl⟩
  | some pi =>
    obtain ⟨p, i⟩ := pi
    subst h2
    refine ⟨by simp [h1], fun j => ?_⟩
    rw [List.getElem?_modify, e1]
    rcases gs[j]? with _ | x
    · simp
    · by_cases e : p = j
      · subst e; simp [patchKids]
      · have e' : ¬ j = p := fun x => e x.symm
        simp [e, e', patchKids]

theorem map_patch_eq_set (rs : List Rec) (p i v r : Nat) (ks : List Nat) (h : rs[r]? = some (.group p ks))
    (huniq : ∀ r' ks', rs[r']? = some (.group p ks') → r' = r) :
    rs.map (patchRec (some (p, i)) v) = rs.set r (.group p (ks.set i v)) := by
  apply List.ext_getElem?
  intro j
  rw [List.getElem?_map, List.getElem?_set]
  by_cases e : r = j
  · subst e
    simp only [if_true, if_pos (lt_of_getElem? h)]
    rw [h]; simp [patchRec]
  · rw [if_neg e]
    rcases hx : rs[j]? with _ | x
    · rfl
    · rw [Option.map_some]
      cases x with
      | data bs => rfl
      | group q ks' =>
        by_cases hq : q = p
        · subst hq; exact absurd (huniq j ks' hx).symm e
        · simp [patchRec, hq]

theorem map_patch_eq_self (rs : List Rec) (par : Option (Nat × Nat)) (v : Nat)
    (h : ∀ (p i r : Nat) ks, par = some (p, i) → rs[r]? ≠ some (.group p ks)) : rs.map (patchRec par v) = rs := by
  apply List.ext_getElem?
  intro j
  rw [List.getElem?_map]
  rcases hx : rs[j]? with _ | x
  · rfl
  · rw [Option.map_some]
    cases x with
    | data bs => rfl
    | group q ks =>
      cases hp : par with
      | none => rfl
      | some pi =>
        obtain ⟨p, i⟩ := pi
        have : q ≠ p := by
          intro e; subst e; exact h q i j ks hp hx
        simp [patchRec, this]

theorem rep_freeze {w : Writer} {d} (h : Rep w d) (hc : w.closed = false) (g : Nat) :
    Rep (w.freeze g) (d.step (.freeze g)) := by
  obtain ⟨rs, hI, hf⟩ := h
  unfold Writer.freeze
  rcases hg : w.groups[g]? with _ | o
  · -- no such group
    have hge : d.groups.length ≤ g := by
      rw [← hI.len]
      rcases Nat.lt_or_ge g w.groups.length with h | h
      · rw [List.getElem?_eq_getElem h] at hg; simp at hg
      · exact h
    have : d.step (.freeze g) = d := by
      simp only [Doc.step]
      rw [modify_eq_self _ _ _ (by intro x hx; rw [List.getElem?_eq_none hge] at hx; simp at hx)]
    rw [this]
    exact ⟨rs, hI, hf⟩
  · have hlt : g < d.groups.length := by rw [← hI.len]; exact lt_of_getElem? hg
    dsimp only
    rcases ho : o.pos with _ | p0
    · dsimp only
      -- the record of the group
      have hrs1 : ∃ rs1 v w1, (if o.kids = [] then (0 : Nat) else w.file.length) = v ∧
          (if o.kids = [] then w else (w.append (le64 o.kids.length)).append (o.kids.flatMap le64)) = w1 ∧
          ((o.kids = [] ∧ v = 0 ∧ rs1 = rs) ∨
            (o.kids ≠ [] ∧ v = posOf rs rs.length ∧ rs1 = rs ++ [.group g o.kids])) ∧
          w1.file = layout 0 (slotOf w.groups 0) rs1 ∧ w1.groups = w.groups ∧ w1.closed = false := by
        by_cases hk : o.kids = []
        · exact ⟨rs, 0, w, by simp [hk], by simp [hk], Or.inl ⟨hk, rfl, rfl⟩, by rw [hf]; simp [flagOf, hc], rfl, hc⟩
        · refine ⟨rs ++ [.group g o.kids], w.file.length, (w.append (le64 o.kids.length)).append (o.kids.flatMap le64), by simp [hk], by simp only [hk, if_false],
            Or.inr ⟨hk, by rw [hf, layout_length], rfl⟩, ?_, rfl, hc⟩
          rw [append_file, append_file, hf, ← layout_append]
          simp [Rec.enc, flagOf, hc]
      obtain ⟨rs1, v, w1, e1, e2, hrs, hf1, hg1, hc1⟩ := hrs1
      rw [e1, e2]
      obtain ⟨gl, G⟩ := freeze_groups w.groups g v o.parent _ _ rfl rfl
      have hI' := hI.freeze g v o hg ho rs1 hrs _ gl G
      have hsl : ∀ gs'' : List OGroup, (∀ j : Nat, gs''[j]? = (w.groups[j]?).map fun x =>
          ⟨patchKids o.parent v j x.kids, x.parent, if j = g then some v else x.pos⟩) →
          slotOf gs'' 0 = if g = 0 then v else slotOf w.groups 0 := by
        intro gs'' G''
        simp only [slotOf, G'']
        by_cases e : g = 0
        · subst e; simp [hg]
        · have e' : ¬ 0 = g := fun x => e x.symm
          simp only [e, e', if_false]
          cases w.groups[0]? <;> simp
      cases hpar : o.parent with
      | none =>
        have hg0 : g = 0 := hI.nonroot g o hg hpar
        rw [hpar] at hI' hsl G
        refine ⟨_, by simp only [Writer.emit]; rw [hg1]; exact hI', ?_⟩
        simp only [Writer.emit]
        rw [hg1, hsl _ G, if_pos hg0, hf1, layout_root, map_patch_eq_self _ _ _ (by simp)]
        simp [flagOf, hc1]
      | some pi =>
        obtain ⟨p, i⟩ := pi
        obtain ⟨hpg, hit⟩ := hI.par g o p i hg hpar
        have hpne : p ≠ g := by omega
        have hg0 : g ≠ 0 := by omega
        rw [hpar] at hI' hsl G
        dsimp only
        have hplt : p < w.groups.length := by have := lt_of_getElem? hg; omega
        obtain ⟨op, hop⟩ : ∃ op, w.groups[p]? = some op := ⟨_, List.getElem?_eq_getElem hplt⟩
        have hop2 : (w1.groups.modify g (fun o => { o with pos := some v }))[p]? = some op := by
          rw [hg1, List.getElem?_modify, hop]
          have e : ¬ g = p := fun e => hpne e.symm
          simp only [e, if_false, Option.map_eq_map, Option.map_some]
        rw [hop2]
        dsimp only
        rcases hpp : op.pos with _ | pp
        · -- the parent is still open
          refine ⟨_, by dsimp only; rw [hg1]; exact hI', ?_⟩
          dsimp only
          rw [hg1, hsl _ G, if_neg hg0, hf1, map_patch_eq_self]
          · simp [flagOf, hc1]
          · intro p' i' r ks e
            simp only [Option.some.injEq, Prod.mk.injEq] at e
            obtain ⟨rfl, rfl⟩ := e
            intro hr
            have hold : ∃ y : Rec, rs[r]? = some y ∧ y = .group p ks := by
              rcases hrs with ⟨-, -, rfl⟩ | ⟨-, -, rfl⟩
              · exact ⟨_, hr, rfl⟩
              · rw [List.getElem?_append] at hr
                split at hr
                · exact ⟨_, hr, rfl⟩
                · generalize r - rs.length = k at hr
                  cases k with
                  | zero => simp at hr; exact absurd hr.1.symm hpne
                  | succ k => simp at hr
            obtain ⟨y, hy, rfl⟩ := hold
            obtain ⟨o2, a, b⟩ := hI.tag r p ks hy
            rw [hop] at a; simp only [Option.some.injEq] at a; subst a
            rw [hpp] at b; simp at b
        · -- the parent is on disk
          have hi : i < op.kids.length := by rw [hI.kidsLen p op hop]; exact lt_of_getElem? hit
          have hne : op.kids ≠ [] := by intro e; rw [e] at hi; simp at hi
          obtain ⟨r, hr, hpos⟩ : ∃ r : Nat, rs[r]? = some (.group p op.kids) ∧ pp = posOf rs r := by
            rcases hI.recd p op pp hop hpp with a | ⟨_, a⟩
            · exact absurd a.1 hne
            · exact a
          have hr1 : rs1[r]? = some (.group p op.kids) ∧ posOf rs1 r = posOf rs r := by
            rcases hrs with ⟨-, -, rfl⟩ | ⟨-, -, rfl⟩
            · exact ⟨hr, rfl⟩
            · exact ⟨getElem?_append_some hr, posOf_append_some _ _ _ _ hr⟩
          have huniq : ∀ (r' : Nat) ks', rs1[r']? = some (.group p ks') → r' = r := by
            intro r' ks' h'
            have hold : rs[r']? = some (.group p ks') := by
              rcases hrs with ⟨-, -, rfl⟩ | ⟨-, -, rfl⟩
              · exact h'
              · rw [List.getElem?_append] at h'
                split at h'
                · exact h'
                · generalize r' - rs.length = k at h'
                  cases k with
                  | zero => simp at h'; exact absurd h'.1.symm hpne
                  | succ k => simp at h'
            obtain ⟨o2, a, b⟩ := hI.tag r' p ks' hold
            rw [hop] at a; simp only [Option.some.injEq] at a; subst a
            rw [hpp, hpos] at b; simp only [Option.some.injEq] at b
            exact (posOf_inj rs hr hold b).symm
          refine ⟨_, by simp only [Writer.emit]; rw [hg1]; exact hI', ?_⟩
          simp only [Writer.emit]
          rw [hg1, hsl _ G, if_neg hg0, hf1, hpos, ← hr1.2, layout_patch _ _ _ _ _ _ _ _ hr1.1 hi,
            map_patch_eq_set _ _ _ _ _ _ hr1.1 huniq]
          simp [flagOf, hc1]
    · -- already frozen
      have : d.step (.freeze g) = d := by
        simp only [Doc.step]
        rw [modify_eq_self]
        intro x hx
        have := hI.fro g o hg
        simp only [Doc.frozen, hx, ho, Option.map_some, Option.getD_some, Option.isSome_some] at this
        rw [← this]
      rw [this]
      exact ⟨rs, hI, hf⟩

theorem rep_close {w : Writer} {d} (h : Rep w d) : Rep w.close d := by
  unfold Writer.close
  split
  · obtain ⟨rs, hI, hf⟩ := h
    refine ⟨rs, hI, ?_⟩
    show writeAt w.file 5 [255] = _
    rw [hf, layout_flag]
    rfl
  · exact h

end F3D.Ogawa

import Verif.Spec.OgawaGraph
import Verif.Proofs.OgawaRead

/-! The invariant of the Ogawa writer, on what matters of its state and of the document. -/

namespace F3D.OgawaGraph
open Ogawa (File le64 emptyData writeAt header Rec posOf layout posOf_inj layout_length layout_append layout_root layout_flag
  layout_patch layout_split rec_le posOf_ge lt_of_getElem? le64_length flatMap_le64_length)

/-- The state of the writer. -/
structure View where
  file : File
  ng : Nat
  nd : Nat
  K : Nat → List Nat
  P : Nat → Option Nat
  par : Nat → List (Option (Nat × Nat))
  dpos : Nat → Nat
  dsize : Nat → Nat
  closed : Bool

/-- The document. -/
structure DV where
  ng : Nat
  nd : Nat
  items : Nat → List Item
  frozen : Nat → Bool
  bytes : Nat → List UInt8
  closed : Bool

/-- Who wrote a record of the file. -/
inductive Ref where
  | group (g : Nat)
  | data (d : Nat)
deriving DecidableEq

def recOf (K : Nat → List Nat) (b : Nat → List UInt8) : Ref → Rec
  | .group g => .group g (K g)
  | .data d => .data (b d)

def recs (K : Nat → List Nat) (b : Nat → List UInt8) (log : List Ref) : List Rec := log.map (recOf K b)

def slotVal (P : Nat → Option Nat) (dpos : Nat → Nat) : Item → Nat
  | .group h => (P h).getD 0
  | .data d => dpos d ||| emptyData
  | .noGroup => 0
  | .noData => emptyData

def flag (c : Bool) : UInt8 := if c then 255 else 0

structure Inv (v : View) (d : DV) (log : List Ref) : Prop where
  ng : v.ng = d.ng
  nd : v.nd = d.nd
  closed : v.closed = d.closed
  root : 0 < v.ng
  fro : ∀ g, d.frozen g = (v.P g).isSome
  kids : ∀ g, v.K g = (d.items g).map (slotVal v.P v.dpos)
  file : v.file = layout (flag v.closed) ((v.P 0).getD 0) (recs v.K d.bytes log)
  size : ∀ x, v.dsize x = (d.bytes x).length
  dnil : ∀ x, d.bytes x = [] → v.dpos x = 0
  drec : ∀ x, d.bytes x ≠ [] → ∃ r : Nat, log[r]? = some (.data x) ∧ v.dpos x = posOf (recs v.K d.bytes log) r
  gpos : ∀ g p, v.P g = some p → (d.items g = [] ∧ p = 0) ∨
    (d.items g ≠ [] ∧ ∃ r : Nat, log[r]? = some (.group g) ∧ p = posOf (recs v.K d.bytes log) r)
  tagd : ∀ (r : Nat) x, log[r]? = some (.data x) → d.bytes x ≠ [] ∧ v.dpos x = posOf (recs v.K d.bytes log) r
  tagg : ∀ (r : Nat) g, log[r]? = some (.group g) → d.items g ≠ [] ∧ v.P g = some (posOf (recs v.K d.bytes log) r)
  wfg : ∀ g h, Item.group h ∈ d.items g → h < v.ng
  wfd : ∀ g x, Item.data x ∈ d.items g → x < v.nd
  outg : ∀ g, v.ng ≤ g → d.items g = [] ∧ v.P g = none ∧ v.par g = []
  outd : ∀ x, v.nd ≤ x → d.bytes x = []
  par : ∀ h, h < v.ng → v.P h = none → ∀ g i, some (g, i) ∈ v.par h ↔ (d.items g)[i]? = some (.group h)
  rootpar : ∀ h, h < v.ng → v.P h = none → (none ∈ v.par h ↔ h = 0)
  allFro : v.closed = true → ∀ g, g < v.ng → (v.P g).isSome = true

/-! ## Records -/

theorem posOf_congr (log : List Ref) (f f' : Ref → Rec) (h : ∀ x ∈ log, (f x).enc.length = (f' x).enc.length) (r : Nat) :
    posOf (log.map f) r = posOf (log.map f') r := by
  unfold posOf
  congr 1
  induction log generalizing r with
  | nil => rfl
  | cons a l ih =>
    cases r with
    | zero => rfl
    | succ r =>
      simp only [List.map_cons, List.take_succ_cons, List.flatMap_cons, List.length_append]
      rw [h a (by simp), ih (fun x hx => h x (by simp [hx])) r]

theorem posOf_recs (log : List Ref) (K K' : Nat → List Nat) (b b' : Nat → List UInt8)
    (hk : ∀ g, .group g ∈ log → (K g).length = (K' g).length) (hb : ∀ d, .data d ∈ log → (b d).length = (b' d).length) (r : Nat) :
    posOf (recs K b log) r = posOf (recs K' b' log) r := by
  apply posOf_congr
  intro x hx
  cases x with
  | group g => simp only [recOf, Rec.enc, List.length_append, le64_length, flatMap_le64_length]; rw [hk g hx]
  | data d => simp [recOf, Rec.enc, hb d hx]

theorem recs_congr (log : List Ref) (K K' : Nat → List Nat) (b b' : Nat → List UInt8)
    (hk : ∀ g, .group g ∈ log → K g = K' g) (hb : ∀ d, .data d ∈ log → b d = b' d) : recs K b log = recs K' b' log := by
  apply List.map_congr_left
  intro x hx
  cases x with
  | group g => simp only [recOf]; rw [hk g hx]
  | data d => simp only [recOf]; rw [hb d hx]

theorem recs_get {K b log} {r : Nat} {x : Ref} (h : log[r]? = some x) : (recs K b log)[r]? = some (recOf K b x) := by
  simp [recs, h]

theorem posOf_recs_append (K b) (log : List Ref) (x : Ref) {r : Nat} {y : Ref} (h : log[r]? = some y) :
    posOf (recs K b (log ++ [x])) r = posOf (recs K b log) r := by
  unfold recs
  rw [List.map_append]
  apply Ogawa.posOf_append
  rw [List.length_map]
  exact Nat.le_of_lt (lt_of_getElem? h)

section
variable {v : View} {d : DV} {log : List Ref}

theorem Inv.log_group (I : Inv v d log) {g : Nat} (h : .group g ∈ log) : (v.P g).isSome = true ∧ g < v.ng := by
  obtain ⟨r, hr⟩ := List.mem_iff_getElem?.1 h
  have := I.tagg r g hr
  refine ⟨by rw [this.2]; rfl, ?_⟩
  rcases Nat.lt_or_ge g v.ng with h | h
  · exact h
  · exact absurd (I.outg g h).1 this.1

theorem Inv.log_data (I : Inv v d log) {x : Nat} (h : .data x ∈ log) : d.bytes x ≠ [] ∧ x < v.nd := by
  obtain ⟨r, hr⟩ := List.mem_iff_getElem?.1 h
  have := I.tagd r x hr
  refine ⟨this.1, ?_⟩
  rcases Nat.lt_or_ge x v.nd with h | h
  · exact h
  · exact absurd (I.outd x h) this.1

theorem Inv.same_ref (I : Inv v d log) {r s : Nat} {x : Ref} (h : log[r]? = some x) (h' : log[s]? = some x) : r = s := by
  cases x with
  | group g =>
    have a := (I.tagg r g h).2
    have b := (I.tagg s g h').2
    rw [a] at b
    exact posOf_inj _ (recs_get h) (recs_get h') (Option.some.inj b)
  | data g =>
    have a := (I.tagd r g h).2
    have b := (I.tagd s g h').2
    rw [a] at b
    exact posOf_inj _ (recs_get h) (recs_get h') b

/-! ## Adding a child -/

theorem Inv.push (I : Inv v d log) (g : Nat) (it : Item) (hg : g < v.ng) (ho : v.P g = none)
    (hi : ∀ h, it = .group h → h < v.ng) (hd : ∀ x, it = .data x → x < v.nd) (par' : Nat → List (Option (Nat × Nat)))
    (hp : ∀ h, par' h = if it = .group h ∧ v.P h = none then v.par h ++ [some (g, (d.items g).length)] else v.par h) :
    Inv { v with K := fun j => if j = g then v.K g ++ [slotVal v.P v.dpos it] else v.K j, par := par' }
      { d with items := fun j => if j = g then d.items g ++ [it] else d.items j } log := by
  have hn : ∀ j, .group j ∈ log → j ≠ g := by
    rintro j hj rfl
    have := (I.log_group hj).1
    rw [ho] at this; cases this
  have hr : recs (fun j => if j = g then v.K g ++ [slotVal v.P v.dpos it] else v.K j) d.bytes log = recs v.K d.bytes log :=
    recs_congr _ _ _ _ _ (fun j hj => if_neg (hn j hj)) (fun _ _ => rfl)
  constructor
  · exact I.ng
  · exact I.nd
  · exact I.closed
  · exact I.root
  · exact I.fro
  · intro j
    dsimp only
    by_cases e : j = g
    · rw [if_pos e, if_pos e, I.kids g, List.map_append]; rfl
    · rw [if_neg e, if_neg e, I.kids j]
  · dsimp only; rw [hr]; exact I.file
  · exact I.size
  · exact I.dnil
  · dsimp only; rw [hr]; exact I.drec
  · intro j p hj
    dsimp only at hj ⊢
    have e : j ≠ g := by rintro rfl; rw [ho] at hj; cases hj
    rw [hr, if_neg e]
    exact I.gpos j p hj
  · dsimp only; rw [hr]; exact I.tagd
  · intro r j hj
    dsimp only
    have e := hn j (List.mem_iff_getElem?.2 ⟨r, hj⟩)
    rw [hr, if_neg e]
    exact I.tagg r j hj
  · intro j h hm
    dsimp only at hm ⊢
    by_cases e : j = g
    · rw [if_pos e] at hm
      rcases List.mem_append.1 hm with k | k
      · exact I.wfg g h k
      · exact hi h (List.mem_singleton.1 k).symm
    · rw [if_neg e] at hm; exact I.wfg j h hm
  · intro j x hm
    dsimp only at hm ⊢
    by_cases e : j = g
    · rw [if_pos e] at hm
      rcases List.mem_append.1 hm with k | k
      · exact I.wfd g x k
      · exact hd x (List.mem_singleton.1 k).symm
    · rw [if_neg e] at hm; exact I.wfd j x hm
  · intro j hj
    dsimp only at hj ⊢
    have e : j ≠ g := by omega
    obtain ⟨a, b, c⟩ := I.outg j hj
    rw [if_neg e, hp j, if_neg]
    · exact ⟨a, b, c⟩
    · rintro ⟨k, -⟩
      have := hi j k
      omega
  · exact I.outd
  · intro h hh hP j i
    dsimp only at hh hP ⊢
    rw [hp h]
    by_cases e : j = g
    · subst e
      rw [if_pos rfl, List.getElem?_append]
      by_cases hl : i < (d.items j).length
      · rw [if_pos hl]
        split
        · rw [List.mem_append, ← I.par h hh hP]
          refine ⟨fun k => k.resolve_right fun k => ?_, .inl⟩
          have := List.mem_singleton.1 k
          simp only [Option.some.injEq, Prod.mk.injEq] at this
          omega
        · exact I.par h hh hP j i
      · rw [if_neg hl]
        have no : some (j, i) ∉ v.par h := by
          rw [I.par h hh hP, List.getElem?_eq_none (by omega)]; simp
        by_cases hit : it = .group h
        · rw [if_pos ⟨hit, hP⟩, List.mem_append, hit]
          constructor
          · rintro (k | k)
            · exact absurd k no
            · have := List.mem_singleton.1 k
              simp only [Option.some.injEq, Prod.mk.injEq] at this
              rw [this.2]; simp
          · intro k
            right
            have : i - (d.items j).length = 0 := by
              have := lt_of_getElem? k
              simp at this; omega
            rw [List.mem_singleton]
            congr 2; omega
        · rw [if_neg (fun k => hit k.1)]
          refine ⟨fun k => absurd k no, fun k => ?_⟩
          exfalso
          obtain ⟨m, hm⟩ : ∃ m, i - (d.items j).length = m := ⟨_, rfl⟩
          rw [hm] at k
          cases m with
          | zero => simp at k; exact hit k
          | succ m => simp at k
    · rw [if_neg e, ← I.par h hh hP]
      split
      · rw [List.mem_append]
        refine ⟨fun k => k.resolve_right fun k => ?_, .inl⟩
        have := List.mem_singleton.1 k
        simp only [Option.some.injEq, Prod.mk.injEq] at this
        exact e this.1
      · exact Iff.rfl
  · intro h hh hP
    dsimp only at hh hP ⊢
    rw [hp h, ← I.rootpar h hh hP]
    split
    · simp
    · exact Iff.rfl
  · intro hc j hj
    have := I.allFro hc g hg
    rw [ho] at this; cases this

/-! ## A new group -/

theorem Inv.newGroup (I : Inv v d log) (hc : v.closed = false) :
    Inv { v with ng := v.ng + 1 } { d with ng := d.ng + 1 } log := by
  have ho := I.outg v.ng (Nat.le_refl _)
  constructor
  · exact congrArg (· + 1) I.ng
  · exact I.nd
  · exact I.closed
  · exact Nat.succ_pos _
  · exact I.fro
  · exact I.kids
  · exact I.file
  · exact I.size
  · exact I.dnil
  · exact I.drec
  · exact I.gpos
  · exact I.tagd
  · exact I.tagg
  · exact fun g h hm => Nat.lt_succ_of_lt (I.wfg g h hm)
  · exact I.wfd
  · exact fun g hg => I.outg g (Nat.le_of_succ_le hg)
  · exact I.outd
  · intro h hh hP g i
    rcases Nat.lt_succ_iff_lt_or_eq.1 hh with k | rfl
    · exact I.par h k hP g i
    · dsimp only
      rw [ho.2.2]
      refine ⟨fun k => absurd k (by simp), fun k => ?_⟩
      have := I.wfg g _ (List.mem_iff_getElem?.2 ⟨i, k⟩)
      omega
  · intro h hh hP
    rcases Nat.lt_succ_iff_lt_or_eq.1 hh with k | rfl
    · exact I.rootpar h k hP
    · dsimp only
      rw [ho.2.2]
      have := I.root
      refine ⟨fun k => absurd k (by simp), fun k => ?_⟩
      omega
  · intro k; rw [show v.closed = true from k] at hc; cases hc

/-! ## New data -/

theorem Inv.newData (I : Inv v d log) (bs : List UInt8) (hb : bs ≠ []) :
    Inv { v with
        file := v.file ++ (le64 bs.length ++ bs)
        nd := v.nd + 1
        dpos := fun x => if x = v.nd then v.file.length else v.dpos x
        dsize := fun x => if x = v.nd then bs.length else v.dsize x }
      { d with nd := d.nd + 1, bytes := fun x => if x = v.nd then bs else d.bytes x } (log ++ [.data v.nd]) := by
  have hn : ∀ x, .data x ∈ log → x ≠ v.nd := fun x hx => by have := (I.log_data hx).2; omega
  have hr : recs v.K (fun x => if x = v.nd then bs else d.bytes x) log = recs v.K d.bytes log :=
    recs_congr _ _ _ _ _ (fun _ _ => rfl) (fun x hx => if_neg (hn x hx))
  have hr' : recs v.K (fun x => if x = v.nd then bs else d.bytes x) (log ++ [.data v.nd]) =
      recs v.K d.bytes log ++ [Rec.data bs] := by
    have : recs v.K (fun x => if x = v.nd then bs else d.bytes x) (log ++ [.data v.nd]) =
      recs v.K (fun x => if x = v.nd then bs else d.bytes x) log ++ [Rec.data bs] := by simp [recs, recOf]
    rw [this, hr]
  have hpos : ∀ (r : Nat) y, log[r]? = some y →
      posOf (recs v.K (fun x => if x = v.nd then bs else d.bytes x) (log ++ [.data v.nd])) r = posOf (recs v.K d.bytes log) r :=
    fun r y h => by rw [posOf_recs_append _ _ _ _ h, hr]
  have hlast : posOf (recs v.K (fun x => if x = v.nd then bs else d.bytes x) (log ++ [.data v.nd])) log.length = v.file.length := by
    rw [I.file, layout_length, hr', Ogawa.posOf_append _ _ _ (by simp [recs])]
    simp [recs]
  have hget : ∀ (r : Nat) y, log[r]? = some y → (log ++ [Ref.data v.nd])[r]? = some y := fun r y h => by
    rw [List.getElem?_append_left (lt_of_getElem? h), h]
  have hinv : ∀ (r : Nat) y, (log ++ [Ref.data v.nd])[r]? = some y → log[r]? = some y ∨ (r = log.length ∧ y = .data v.nd) := by
    intro r y h
    rw [List.getElem?_append] at h
    split at h
    · exact .inl h
    · right
      rename_i k
      have := lt_of_getElem? h
      simp at this
      have e : r = log.length := by omega
      subst e
      simp at h
      exact ⟨rfl, h.symm⟩
  constructor
  · exact I.ng
  · exact congrArg (· + 1) I.nd
  · exact I.closed
  · exact I.root
  · exact I.fro
  · intro g
    rw [I.kids g]
    apply List.map_congr_left
    intro it hit
    cases it with
    | data x =>
      have := I.wfd g x hit
      simp only [slotVal]
      rw [if_neg (by omega)]
    | _ => rfl
  · dsimp only
    rw [hr', ← layout_append, I.file]; rfl
  · intro x
    dsimp only
    split
    · rfl
    · exact I.size x
  · intro x hx
    dsimp only at hx ⊢
    by_cases e : x = v.nd
    · rw [if_pos e] at hx; exact absurd hx hb
    · rw [if_neg e] at hx ⊢; exact I.dnil x hx
  · intro x hx
    dsimp only at hx ⊢
    by_cases e : x = v.nd
    · rw [if_pos e]
      refine ⟨log.length, by simp [e], hlast.symm⟩
    · rw [if_neg e] at hx ⊢
      obtain ⟨r, h1, h2⟩ := I.drec x hx
      exact ⟨r, hget r _ h1, by rw [hpos r _ h1, h2]⟩
  · intro g p hp
    rcases I.gpos g p hp with h | ⟨h, r, h1, h2⟩
    · exact .inl h
    · exact .inr ⟨h, r, hget r _ h1, by rw [hpos r _ h1, h2]⟩
  · intro r x hx
    dsimp only
    rcases hinv r _ hx with h | ⟨rfl, h⟩
    · have := I.tagd r x h
      rw [if_neg (hn x (List.mem_iff_getElem?.2 ⟨r, h⟩)), if_neg (hn x (List.mem_iff_getElem?.2 ⟨r, h⟩)), hpos r _ h]
      exact this
    · cases h
      rw [if_pos rfl, if_pos rfl, hlast]
      exact ⟨hb, rfl⟩
  · intro r g hx
    rcases hinv r _ hx with h | ⟨rfl, h⟩
    · rw [hpos r _ h]; exact I.tagg r g h
    · cases h
  · exact I.wfg
  · exact fun g x hm => Nat.lt_succ_of_lt (I.wfd g x hm)
  · exact I.outg
  · intro x hx
    dsimp only at hx ⊢
    rw [if_neg (by omega)]
    exact I.outd x (by omega)
  · exact I.par
  · exact I.rootpar
  · exact I.allFro

/-! ## Data that are rewritten -/

theorem writeAt_data (n : Nat) (old bs : List UInt8) (off : Nat) (h : off + bs.length ≤ old.length) :
    writeAt (le64 n ++ old) (8 + off) bs = le64 n ++ (old.take off ++ bs ++ old.drop (off + bs.length)) := by
  have := Ogawa.writeAt_mid (le64 n) old [] bs off h
  simp only [List.append_nil, le64_length] at this
  rw [this]
  congr 1
  unfold writeAt
  rw [show off - old.length = 0 by omega]
  simp

theorem Inv.rewrite (I : Inv v d log) (x : Nat) (bs : List UInt8) (off : Nat) (h : off + bs.length ≤ (d.bytes x).length)
    (hb : bs ≠ []) :
    Inv { v with file := writeAt v.file (v.dpos x + off + 8) bs }
      { d with bytes := fun y => if y = x then (d.bytes x).take off ++ bs ++ (d.bytes x).drop (off + bs.length) else d.bytes y } log := by
  have hlen : ((d.bytes x).take off ++ bs ++ (d.bytes x).drop (off + bs.length)).length = (d.bytes x).length := by
    simp only [List.length_append, List.length_take, List.length_drop]; omega
  have hne : d.bytes x ≠ [] := by
    intro e; rw [e] at h; exact hb (List.eq_nil_of_length_eq_zero (by simp only [List.length_nil] at h; omega))
  have hnil : ∀ y, (if y = x then (d.bytes x).take off ++ bs ++ (d.bytes x).drop (off + bs.length) else d.bytes y) = [] ↔
      d.bytes y = [] := by
    intro y
    by_cases e : y = x
    · rw [if_pos e, e, ← List.length_eq_zero_iff, hlen, List.length_eq_zero_iff]
    · rw [if_neg e]
  have hpos : ∀ r, posOf (recs v.K (fun y => if y = x then (d.bytes x).take off ++ bs ++ (d.bytes x).drop (off + bs.length)
      else d.bytes y) log) r = posOf (recs v.K d.bytes log) r := fun r => posOf_recs _ _ _ _ _ (fun _ _ => rfl) (fun y _ => by
    split
    · rename_i e; rw [hlen, e]
    · rfl) r
  obtain ⟨r, h1, h2⟩ := I.drec x hne
  constructor
  · exact I.ng
  · exact I.nd
  · exact I.closed
  · exact I.root
  · exact I.fro
  · exact I.kids
  · dsimp only
    obtain ⟨A, B, e1, e2, e3⟩ := layout_split (flag v.closed) ((v.P 0).getD 0) (recs v.K d.bytes log) r _ (recs_get h1)
    have hset : recs v.K (fun y => if y = x then (d.bytes x).take off ++ bs ++ (d.bytes x).drop (off + bs.length)
        else d.bytes y) log = (recs v.K d.bytes log).set r
          (.data ((d.bytes x).take off ++ bs ++ (d.bytes x).drop (off + bs.length))) := by
      apply List.ext_getElem?
      intro s
      rw [List.getElem?_set]
      by_cases e : r = s
      · subst e
        rw [if_pos rfl, if_pos (by simpa [recs] using lt_of_getElem? h1), recs_get h1]
        simp [recOf]
      · rw [if_neg e]
        cases hs : log[s]? with
        | none => simp [recs, hs]
        | some y =>
          rw [recs_get hs, recs_get hs]
          cases y with
          | group g => rfl
          | data y =>
            simp only [recOf]
            rw [if_neg]
            rintro rfl
            exact e (I.same_ref h1 hs)
    rw [hset, e3, I.file, e1, h2, ← e2, show A.length + off + 8 = A.length + (8 + off) by omega,
      Ogawa.writeAt_mid _ _ _ _ _ (by simp only [recOf, Rec.enc, List.length_append, le64_length]; omega)]
    congr 2
    simp only [recOf, Rec.enc]
    rw [writeAt_data _ _ _ _ h, hlen]
  · intro y
    show v.dsize y = (if y = x then _ else d.bytes y).length
    rw [I.size y]
    split
    · rename_i e; rw [hlen, e]
    · rfl
  · intro y hy
    exact I.dnil y ((hnil y).1 hy)
  · intro y hy
    dsimp only
    obtain ⟨s, a, b⟩ := I.drec y (fun k => hy ((hnil y).2 k))
    exact ⟨s, a, by rw [hpos, b]⟩
  · intro g p hp
    dsimp only
    rw [show (∃ r : Nat, log[r]? = some (.group g) ∧ p = posOf _ r) ↔ (∃ r : Nat, log[r]? = some (.group g) ∧
      p = posOf (recs v.K d.bytes log) r) from exists_congr fun r => and_congr_right fun _ => by rw [hpos]]
    exact I.gpos g p hp
  · intro s y hy
    dsimp only
    rw [hpos]
    have := I.tagd s y hy
    exact ⟨fun k => this.1 ((hnil y).1 k), this.2⟩
  · intro s g hg
    dsimp only
    rw [hpos]
    exact I.tagg s g hg
  · exact I.wfg
  · exact I.wfd
  · exact I.outg
  · intro y hy
    exact (hnil y).2 (I.outd y hy)
  · exact I.par
  · exact I.rootpar
  · exact I.allFro

/-! ## Closing -/

theorem Inv.close (I : Inv v d log) (h : ∀ g, g < v.ng → (v.P g).isSome = true) :
    Inv { v with file := writeAt v.file 5 [255], closed := true } { d with closed := true } log where
  ng := I.ng
  nd := I.nd
  closed := rfl
  root := I.root
  fro := I.fro
  kids := I.kids
  file := by
    have := I.file
    dsimp only
    rw [this, layout_flag]; rfl
  size := I.size
  dnil := I.dnil
  drec := I.drec
  gpos := I.gpos
  tagd := I.tagd
  tagg := I.tagg
  wfg := I.wfg
  wfd := I.wfd
  outg := I.outg
  outd := I.outd
  par := I.par
  rootpar := I.rootpar
  allFro := fun _ => h

/-! ## Slots that are written again -/

theorem patch_file (fl : UInt8) (rt : Nat) (K : Nat → List Nat) (b : Nat → List UInt8) (log : List Ref)
    (hu : ∀ (r s : Nat) x, log[r]? = some x → log[s]? = some x → r = s) {r p : Nat} (hr : log[r]? = some (.group p)) (i val : Nat)
    (hi : i < (K p).length) :
    writeAt (layout fl rt (recs K b log)) (posOf (recs K b log) r + (i + 1) * 8) (le64 val) =
      layout fl rt (recs (fun j => if j = p then (K p).set i val else K j) b log) := by
  rw [layout_patch fl rt _ r p (K p) i val (recs_get hr) hi]
  congr 1
  apply List.ext_getElem?
  intro s
  rw [List.getElem?_set]
  by_cases e : r = s
  · subst e
    rw [if_pos rfl, if_pos (by simpa [recs] using lt_of_getElem? hr), recs_get hr]
    simp [recOf]
  · rw [if_neg e]
    cases hs : log[s]? with
    | none => simp [recs, hs]
    | some y =>
      rw [recs_get hs, recs_get hs]
      cases y with
      | data y => rfl
      | group g =>
        simp only [recOf]
        rw [if_neg]
        rintro rfl
        exact e (hu r s _ hr hs)

/-- One parent, on the file and the slots. -/
def patchV (P : Nat → Option Nat) (val : Nat) (s : File × (Nat → List Nat)) : Option (Nat × Nat) → File × (Nat → List Nat)
  | none => (writeAt s.1 8 (le64 val), s.2)
  | some (p, i) =>
    (match P p with
      | some q => writeAt s.1 (q + (i + 1) * 8) (le64 val)
      | none => s.1, fun j => if j = p then (s.2 p).set i val else s.2 j)

theorem fold_patch (P : Nat → Option Nat) (b : Nat → List UInt8) (log : List Ref) (fl : UInt8) (val : Nat)
    (hu : ∀ (r s : Nat) x, log[r]? = some x → log[s]? = some x → r = s) (hl : ∀ (r g : Nat), log[r]? = some (.group g) → (P g).isSome)
    (ps : List (Option (Nat × Nat))) : ∀ (f : File) (K : Nat → List Nat) (rt : Nat), f = layout fl rt (recs K b log) →
    (∀ p q, P p = some q → K p ≠ [] → ∃ r : Nat, log[r]? = some (.group p) ∧ q = posOf (recs K b log) r) →
    (∀ p i, some (p, i) ∈ ps → i < (K p).length) →
    (ps.foldl (patchV P val) (f, K)).1 =
      layout fl (if none ∈ ps then val else rt) (recs (ps.foldl (patchV P val) (f, K)).2 b log) ∧
    ∀ p i, ((ps.foldl (patchV P val) (f, K)).2 p)[i]? = if some (p, i) ∈ ps then (K p)[i]?.map (fun _ => val) else (K p)[i]? := by
  induction ps with
  | nil => intro f K rt hf _ _; simp [hf]
  | cons a ps ih =>
    intro f K rt hf hq hi
    rw [List.foldl_cons]
    rcases a with _ | ⟨p, i⟩
    · have hf' : writeAt f 8 (le64 val) = layout fl val (recs K b log) := by rw [hf, layout_root]
      obtain ⟨h1, h2⟩ := ih (writeAt f 8 (le64 val)) K val hf' hq (fun p i h => hi p i (by simp [h]))
      refine ⟨?_, fun p i => ?_⟩
      · rw [show patchV P val (f, K) none = (writeAt f 8 (le64 val), K) from rfl, h1]
        simp
      · rw [show patchV P val (f, K) none = (writeAt f 8 (le64 val), K) from rfl, h2]
        simp
    · have hip := hi p i (by simp)
      have hne : K p ≠ [] := by intro e; rw [e] at hip; simp at hip
      have hpos : ∀ r, posOf (recs (fun j => if j = p then (K p).set i val else K j) b log) r = posOf (recs K b log) r :=
        fun r => posOf_recs _ _ _ _ _ (fun j _ => by split <;> simp_all) (fun _ _ => rfl) r
      have hf' : (match P p with
          | some q => writeAt f (q + (i + 1) * 8) (le64 val)
          | none => f) = layout fl rt (recs (fun j => if j = p then (K p).set i val else K j) b log) := by
        cases hP : P p with
        | none =>
          simp only
          rw [hf]
          congr 1
          apply recs_congr
          · intro g hg
            obtain ⟨r, hr⟩ := List.mem_iff_getElem?.1 hg
            have := hl r g hr
            rw [if_neg]
            rintro rfl
            rw [hP] at this; cases this
          · exact fun _ _ => rfl
        | some q =>
          simp only
          obtain ⟨r, hr, rfl⟩ := hq p q hP hne
          rw [hf, patch_file fl rt K b log hu hr i val hip]
      obtain ⟨h1, h2⟩ := ih _ (fun j => if j = p then (K p).set i val else K j) rt hf'
        (fun j q hj hn => by
          have hn' : K j ≠ [] := by
            intro e; apply hn; split
            · rename_i k; subst k; rw [e]; simp
            · exact e
          obtain ⟨r, hr, e⟩ := hq j q hj hn'
          exact ⟨r, hr, by rw [hpos, e]⟩)
        (fun j k h => by
          have := hi j k (by simp [h])
          split
          · rename_i e; subst e; simpa using this
          · exact this)
      refine ⟨?_, fun j k => ?_⟩
      · show (List.foldl (patchV P val) (_, fun j => if j = p then (K p).set i val else K j) ps).1 = _
        rw [h1]
        simp only [List.mem_cons, reduceCtorEq, false_or]
        rfl
      · show ((List.foldl (patchV P val) (_, fun j => if j = p then (K p).set i val else K j) ps).2 j)[k]? = _
        rw [h2]
        by_cases e : j = p
        · subst e
          rw [if_pos rfl, List.getElem?_set]
          by_cases e' : i = k
          · subst e'
            rw [if_pos rfl, if_pos hip, List.getElem?_eq_getElem hip]
            simp
          · rw [if_neg e']
            have : (some (j, k) ∈ some (j, i) :: ps) = (some (j, k) ∈ ps) := by
              simp [Ne.symm e']
            simp only [this]
        · rw [if_neg e]
          have : (some (j, k) ∈ some (p, i) :: ps) = (some (j, k) ∈ ps) := by simp [e]
          simp only [this]

/-! ## Data that are replaced -/

theorem Inv.replace (I : Inv v d log) (g i x : Nat) (hx : x < v.nd) (it : Item) (hi : (d.items g)[i]? = some it)
    (hit : Doc.isData it = true) :
    Inv { v with
        file := match v.P g with
          | some q => writeAt v.file (q + (i + 1) * 8) (le64 (v.dpos x ||| emptyData))
          | none => v.file
        K := fun j => if j = g then (v.K g).set i (v.dpos x ||| emptyData) else v.K j }
      { d with items := fun j => if j = g then (d.items g).set i (.data x) else d.items j } log := by
  have hil := lt_of_getElem? hi
  have hikl : i < (v.K g).length := by rw [I.kids g]; simpa using hil
  have hkl : ∀ j, (if j = g then (v.K g).set i (v.dpos x ||| emptyData) else v.K j).length = (v.K j).length := by
    intro j; split
    · rename_i e; rw [e]; simp
    · rfl
  have hpos : ∀ r, posOf (recs (fun j => if j = g then (v.K g).set i (v.dpos x ||| emptyData) else v.K j) d.bytes log) r =
      posOf (recs v.K d.bytes log) r := fun r => posOf_recs _ _ _ _ _ (fun j _ => hkl j) (fun _ _ => rfl) r
  have hnil : ∀ j, (if j = g then (d.items g).set i (.data x) else d.items j) = [] ↔ d.items j = [] := by
    intro j; split
    · rename_i e; rw [e]; simp
    · exact Iff.rfl
  have hmem : ∀ j y, y ∈ (if j = g then (d.items g).set i (.data x) else d.items j) → y = .data x ∨ y ∈ d.items j := by
    intro j y hy
    split at hy
    · rename_i e
      rw [e]
      rcases List.mem_or_eq_of_mem_set hy with h | h
      · exact .inr h
      · exact .inl h
    · exact .inr hy
  constructor
  · exact I.ng
  · exact I.nd
  · exact I.closed
  · exact I.root
  · exact I.fro
  · intro j
    dsimp only
    by_cases e : j = g
    · rw [if_pos e, if_pos e, I.kids g, List.map_set]; rfl
    · rw [if_neg e, if_neg e, I.kids j]
  · dsimp only
    cases hP : v.P g with
    | none =>
      simp only
      rw [I.file]
      congr 1
      apply recs_congr
      · intro j hj
        rw [if_neg]
        rintro rfl
        have := (I.log_group hj).1
        rw [hP] at this; cases this
      · exact fun _ _ => rfl
    | some q =>
      simp only
      rcases I.gpos g q hP with ⟨h, -⟩ | ⟨-, r, hr, rfl⟩
      · rw [h] at hil; simp at hil
      · have := patch_file (flag v.closed) ((v.P 0).getD 0) v.K d.bytes log (fun r s y h h' => I.same_ref h h') hr i
          (v.dpos x ||| emptyData) hikl
        rw [← this, ← I.file]
  · exact I.size
  · exact I.dnil
  · intro y hy
    obtain ⟨r, a, b⟩ := I.drec y hy
    exact ⟨r, a, by dsimp only; rw [hpos, b]⟩
  · intro j p hp
    dsimp only
    rcases I.gpos j p hp with ⟨a, b⟩ | ⟨a, r, b, c⟩
    · exact .inl ⟨(hnil j).2 a, b⟩
    · exact .inr ⟨fun k => a ((hnil j).1 k), r, b, by rw [hpos, c]⟩
  · intro r y hy
    dsimp only
    rw [hpos]
    exact I.tagd r y hy
  · intro r j hj
    dsimp only
    rw [hpos]
    obtain ⟨a, b⟩ := I.tagg r j hj
    exact ⟨fun k => a ((hnil j).1 k), b⟩
  · intro j h hm
    rcases hmem j _ hm with k | k
    · cases k
    · exact I.wfg j h k
  · intro j y hm
    rcases hmem j _ hm with k | k
    · cases k; exact hx
    · exact I.wfd j y k
  · intro j hj
    obtain ⟨a, b, c⟩ := I.outg j hj
    exact ⟨(hnil j).2 a, b, c⟩
  · exact I.outd
  · intro h hh hP j k
    rw [I.par h hh hP j k]
    dsimp only
    split
    · rename_i e
      subst e
      rw [List.getElem?_set]
      by_cases e : i = k
      · subst e
        rw [if_pos rfl, if_pos hil, hi]
        constructor
        · intro q; cases q; cases hit
        · intro q; cases q
      · rw [if_neg e]
    · exact Iff.rfl
  · exact I.rootpar
  · exact I.allFro

/-! ## Freezing -/

/-- The state after the table of slots was appended. -/
def tabled (v : View) (g : Nat) : File := if v.K g = [] then v.file else v.file ++ (le64 (v.K g).length ++ (v.K g).flatMap le64)
def place (v : View) (g : Nat) : Nat := if v.K g = [] then 0 else v.file.length

theorem Inv.freeze (I : Inv v d log) (g : Nat) (hg : g < v.ng) (ho : v.P g = none) :
    ∃ log', Inv { v with
        file := ((v.par g).foldl (patchV (fun j => if j = g then some (place v g) else v.P j) (place v g)) (tabled v g, v.K)).1
        K := ((v.par g).foldl (patchV (fun j => if j = g then some (place v g) else v.P j) (place v g)) (tabled v g, v.K)).2
        P := fun j => if j = g then some (place v g) else v.P j
        par := fun j => if j = g then [] else v.par j }
      { d with frozen := fun j => if j = g then true else d.frozen j } log' := by
  have hc : v.closed = false := by
    cases h : v.closed with
    | false => rfl
    | true => have := I.allFro h g hg; rw [ho] at this; cases this
  have hkn : v.K g = [] ↔ d.items g = [] := by rw [I.kids g, List.map_eq_nil_iff]
  have hng : .group g ∉ log := fun h => by have := (I.log_group h).1; rw [ho] at this; cases this
  have hmem : ∀ (r : Nat) y, log[r]? = some y → y ∈ log := fun r y h => List.mem_iff_getElem?.2 ⟨r, h⟩
  -- the log after the table
  obtain ⟨log', L1, L2, L3, L4⟩ : ∃ log', tabled v g = layout (flag v.closed) ((v.P 0).getD 0) (recs v.K d.bytes log') ∧
      (∀ (r : Nat) y, log[r]? = some y → log'[r]? = some y ∧ posOf (recs v.K d.bytes log') r = posOf (recs v.K d.bytes log) r) ∧
      (∀ (r : Nat) y, log'[r]? = some y → log[r]? = some y ∨ (y = .group g ∧ d.items g ≠ [] ∧
        place v g = posOf (recs v.K d.bytes log') r)) ∧
      ((d.items g = [] ∧ place v g = 0) ∨ (d.items g ≠ [] ∧ ∃ r : Nat, log'[r]? = some (.group g) ∧
        place v g = posOf (recs v.K d.bytes log') r)) := by
    by_cases h : v.K g = []
    · refine ⟨log, by rw [tabled, if_pos h, I.file], fun r y k => ⟨k, rfl⟩, fun r y k => .inl k, .inl ⟨hkn.1 h, if_pos h⟩⟩
    · have hlast : v.file.length = posOf (recs v.K d.bytes (log ++ [.group g])) log.length := by
        rw [I.file, layout_length]
        unfold recs
        rw [List.map_append, Ogawa.posOf_append _ _ _ (by simp)]
        simp
      have hlg : (log ++ [Ref.group g])[log.length]? = some (.group g) := by simp
      refine ⟨log ++ [.group g], ?_, fun r y k => ⟨by rw [List.getElem?_append_left (lt_of_getElem? k), k],
        posOf_recs_append _ _ _ _ k⟩, fun r y k => ?_, .inr ⟨fun k => h (hkn.2 k), log.length, hlg, ?_⟩⟩
      · rw [tabled, if_neg h]
        have : recs v.K d.bytes (log ++ [.group g]) = recs v.K d.bytes log ++ [Rec.group g (v.K g)] := by simp [recs, recOf]
        rw [this, ← layout_append, I.file]; rfl
      · rw [List.getElem?_append] at k
        split at k
        · exact .inl k
        · right
          have hl := lt_of_getElem? k
          simp at hl
          have e : r = log.length := by omega
          subst e
          simp at k
          exact ⟨k.symm, fun k => h (hkn.2 k), by rw [place, if_neg h, hlast]⟩
      · rw [place, if_neg h, hlast]
  have hu : ∀ (r s : Nat) x, log'[r]? = some x → log'[s]? = some x → r = s := by
    intro r s x h h'
    rcases L3 r x h with a | ⟨rfl, -, a⟩
    · rcases L3 s x h' with b | ⟨rfl, -, b⟩
      · exact I.same_ref a b
      · exact absurd (hmem r _ a) hng
    · rcases L3 s _ h' with b | ⟨-, -, b⟩
      · exact absurd (hmem s _ b) hng
      · exact posOf_inj _ (recs_get h) (recs_get h') (by rw [← a, ← b])
  have hPg : ∀ j p, (if j = g then some (place v g) else v.P j) = some p →
      (d.items j = [] ∧ p = 0) ∨ (d.items j ≠ [] ∧ ∃ r : Nat, log'[r]? = some (.group j) ∧ p = posOf (recs v.K d.bytes log') r) := by
    intro j p hp
    by_cases e : j = g
    · rw [if_pos e] at hp
      rw [e, ← Option.some.inj hp]
      exact L4
    · rw [if_neg e] at hp
      rcases I.gpos j p hp with h | ⟨h, r, a, b⟩
      · exact .inl h
      · exact .inr ⟨h, r, (L2 r _ a).1, by rw [(L2 r _ a).2, b]⟩
  have htag : ∀ (r : Nat) j, log'[r]? = some (.group j) → d.items j ≠ [] ∧
      (if j = g then some (place v g) else v.P j) = some (posOf (recs v.K d.bytes log') r) := by
    intro r j h
    rcases L3 r _ h with a | ⟨e, a, b⟩
    · have e : j ≠ g := by rintro rfl; exact hng (hmem r _ a)
      rw [if_neg e, (L2 r _ a).2]
      exact I.tagg r j a
    · cases e
      rw [if_pos rfl, b]
      exact ⟨a, rfl⟩
  obtain ⟨F1, F2⟩ := fold_patch (fun j => if j = g then some (place v g) else v.P j) d.bytes log' (flag v.closed) (place v g) hu
    (fun r j h => by rw [(htag r j h).2]; rfl) (v.par g) (tabled v g) v.K ((v.P 0).getD 0) L1
    (fun p q hp hn => by
      rcases hPg p q hp with ⟨h, -⟩ | ⟨-, h⟩
      · rw [I.kids p, h] at hn; exact absurd rfl hn
      · exact h)
    (fun p i h => by
      have := lt_of_getElem? ((I.par g hg ho p i).1 h)
      rw [I.kids p]; simpa using this)
  generalize hS : (v.par g).foldl (patchV (fun j => if j = g then some (place v g) else v.P j) (place v g)) (tabled v g, v.K) = S
  rw [hS] at F1 F2
  have hK : ∀ j, S.2 j = (d.items j).map (slotVal (fun j => if j = g then some (place v g) else v.P j) v.dpos) := by
    intro j
    apply List.ext_getElem?
    intro i
    rw [F2, List.getElem?_map, I.kids j, List.getElem?_map]
    cases hit : (d.items j)[i]? with
    | none => simp
    | some it =>
      simp only [Option.map_some]
      by_cases e : it = .group g
      · rw [if_pos ((I.par g hg ho j i).2 (by rw [hit, e]))]
        rw [e]
        simp [slotVal]
      · rw [if_neg (fun k => e (Option.some.inj (hit.symm.trans ((I.par g hg ho j i).1 k))))]
        cases it with
        | group h =>
          have : h ≠ g := by rintro rfl; exact e rfl
          simp [slotVal, this]
        | _ => rfl
  have hpos : ∀ r, posOf (recs S.2 d.bytes log') r = posOf (recs v.K d.bytes log') r :=
    fun r => posOf_recs _ _ _ _ _ (fun j _ => by rw [hK j, I.kids j]; simp) (fun _ _ => rfl) r
  refine ⟨log', ?_⟩
  constructor
  · exact I.ng
  · exact I.nd
  · exact I.closed
  · exact I.root
  · intro j
    dsimp only
    by_cases e : j = g
    · rw [if_pos e, if_pos e]; rfl
    · rw [if_neg e, if_neg e]; exact I.fro j
  · exact hK
  · dsimp only
    rw [F1]
    congr 1
    by_cases e : 0 = g
    · subst e
      rw [if_pos ((I.rootpar 0 hg ho).2 rfl), if_pos rfl]; rfl
    · rw [if_neg (fun k => e ((I.rootpar g hg ho).1 k).symm), if_neg e]
  · exact I.size
  · exact I.dnil
  · intro x hx
    dsimp only
    obtain ⟨r, a, b⟩ := I.drec x hx
    exact ⟨r, (L2 r _ a).1, by rw [hpos, (L2 r _ a).2, b]⟩
  · intro j p hp
    dsimp only
    rcases hPg j p hp with h | ⟨h, r, a, b⟩
    · exact .inl h
    · exact .inr ⟨h, r, a, by rw [hpos, b]⟩
  · intro r x hx
    dsimp only
    rw [hpos]
    rcases L3 r _ hx with a | ⟨a, -⟩
    · rw [(L2 r _ a).2]; exact I.tagd r x a
    · cases a
  · intro r j hj
    dsimp only
    rw [hpos]
    exact htag r j hj
  · exact I.wfg
  · exact I.wfd
  · intro j hj
    dsimp only at hj ⊢
    rw [if_neg (by omega), if_neg (by omega)]
    exact I.outg j hj
  · exact I.outd
  · intro h hh hP j i
    dsimp only at hh hP ⊢
    by_cases e : h = g
    · rw [if_pos e] at hP; cases hP
    · rw [if_neg e] at hP ⊢
      exact I.par h hh hP j i
  · intro h hh hP
    dsimp only at hh hP ⊢
    by_cases e : h = g
    · rw [if_pos e] at hP; cases hP
    · rw [if_neg e] at hP ⊢
      exact I.rootpar h hh hP
  · intro k; rw [show v.closed = true from k] at hc; cases hc

end
end F3D.OgawaGraph

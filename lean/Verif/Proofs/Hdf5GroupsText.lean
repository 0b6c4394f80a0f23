import Verif.Proofs.Hdf5GroupsRead

/-!
# Lemmas on groups of layers: texts and maps
-/

namespace F3D
namespace Hdf5
open Ogawa Og FieldIO
open Metadata (Dict Meta)
open Files (removeUniqueId)
open Props (get_set Increasing increasing_set)

variable {M : Type}

/-! ## Texts -/

theorem tokens_word : ∀ (w : Name) (c : UInt8) (r : List UInt8), w ≠ [] → (32 : UInt8) ∉ w → (58 : UInt8) ∉ w →
    (c = 32 ∨ c = 58) → tokens (w ++ c :: r) = w :: tokens r
  | [], _, _, h, _, _, _ => absurd rfl h
  | [x], c, r, _, h1, h2, hc => by
    have hx : ¬ (x = 32 ∨ x = 58) := by
      rintro (e | e)
      · exact h1 (by simp [e])
      · exact h2 (by simp [e])
    have e : tokens (c :: r) = tokens r := by rw [tokens.eq_def]; simp only [if_pos hc]
    rw [List.singleton_append, tokens.eq_def]
    simp only [if_neg hx, if_pos hc, e]
  | x :: y :: w, c, r, _, h1, h2, hc => by
    have hx : ¬ (x = 32 ∨ x = 58) := by
      rintro (e | e)
      · exact h1 (by simp [e])
      · exact h2 (by simp [e])
    have hy : ¬ (y = 32 ∨ y = 58) := by
      rintro (e | e)
      · exact h1 (by simp [e])
      · exact h2 (by simp [e])
    have ih := tokens_word (y :: w) c r (by simp) (fun h => h1 (by simp [h])) (fun h => h2 (by simp [h])) hc
    rw [List.cons_append, List.cons_append, tokens.eq_def]
    rw [List.cons_append] at ih
    simp only [if_neg hx, if_neg hy, ih]

theorem text_append (a b : List Member) : textOf (a ++ b) = textOf a ++ textOf b := by
  unfold textOf
  rw [List.map_append, List.flatten_append]

theorem text_nul : ∀ ms : List Member, (∀ m ∈ ms, m.Fits) → (0 : UInt8) ∉ textOf ms
  | [], _ => by simp [textOf]
  | m :: ms, h => by
    have h1 := h m (by simp)
    have e : textOf (m :: ms) = m.text ++ textOf ms := by unfold textOf; simp
    rw [e, List.mem_append, not_or]
    refine ⟨?_, text_nul ms fun x hx => h x (by simp [hx])⟩
    simp [Member.text, h1.1.2.2.2, h1.2.2.2.2]

/-- The text of members is read as the text of the members without their numbers. -/
theorem members_back : ∀ ms : List Member, (∀ m ∈ ms, m.Fits) → memberText (tokens (textOf ms)) = some (textOf (ms.map Member.plain))
  | [], _ => by simp [textOf, tokens, memberText]
  | m :: ms, h => by
    obtain ⟨⟨a1, a2, a3, -⟩, ⟨b1, b2, b3, -⟩⟩ := h m (by simp)
    have e : textOf (m :: ms) = m.part ++ 58 :: (m.layer ++ 32 :: textOf ms) := by
      unfold textOf
      simp [Member.text]
    rw [e, tokens_word _ _ _ a1 a2 a3 (.inr rfl), tokens_word _ _ _ b1 b2 b3 (.inl rfl), memberText,
      members_back ms fun x hx => h x (by simp [hx])]
    simp [textOf, Member.text, Member.plain]

/-! ## Adding -/

/-- One more list of members in a group. -/
def more (x : Option (List UInt8)) : Option (List Member) → Option (List UInt8)
  | none => x
  | some ms => some (x.getD [] ++ textOf ms)

/-- The members of the entries for a group. -/
def entriesOf (n : Name) (gs : List (Name × List Member)) : Option (List Member) :=
  match gs.filter fun p => p.1 = n with
  | [] => none
  | l => some (l.map (·.2)).flatten

def joined (a b : Option (List Member)) : Option (List Member) :=
  match a with
  | none => b
  | some x => some (x ++ b.getD [])

theorem more_joined (x : Option (List UInt8)) (a b : Option (List Member)) : more (more x a) b = more x (joined a b) := by
  cases a with
  | none => rfl
  | some a => cases b with
    | none => simp [more, joined]
    | some b => simp [more, joined, text_append]

theorem entries_cons (n : Name) (p : Name × List Member) (gs : List (Name × List Member)) :
    entriesOf n (p :: gs) = joined (if p.1 = n then some p.2 else none) (entriesOf n gs) := by
  unfold entriesOf joined
  by_cases h : p.1 = n
  · rw [List.filter_cons, if_pos (by simp [h]), if_pos h]
    cases gs.filter fun p => decide (p.1 = n) with
    | nil => simp
    | cons q l => simp
  · rw [List.filter_cons, if_neg (by simp [h]), if_neg h]

theorem get_add (n : Name) : ∀ (gs : List (Name × List Member)) (g : Groups),
    (g.add (gs.map fun p => (p.1, textOf p.2))).get n = more (g.get n) (entriesOf n gs)
  | [], g => rfl
  | p :: gs, g => by
    have ih := get_add n gs
    have e : g.add ((p :: gs).map fun p => (p.1, textOf p.2)) =
        Groups.add (match g.get p.1 with
          | some v => g.set p.1 (v ++ textOf p.2)
          | none => g.set p.1 (textOf p.2)) (gs.map fun p => (p.1, textOf p.2)) := rfl
    rw [e, ih, entries_cons, ← more_joined]
    congr 1
    by_cases h : p.1 = n
    · subst h
      rw [if_pos rfl]
      cases g.get p.1 with
      | none => simp only [get_set, if_true, more, Option.getD_none, List.nil_append]
      | some v => simp only [get_set, if_true, more, Option.getD_some]
    · rw [if_neg h]
      cases g.get p.1 with
      | none => simp only [get_set, if_neg h, more]
      | some v => simp only [get_set, if_neg h, more]

theorem set_mem {T : Type} (n : Name) (v : T) : ∀ (d : Dict T) (p : Name × T), p ∈ d.set n v → p.1 = n ∨ p ∈ d
  | [], p, h => by simp [Dict.set] at h; simp [h]
  | (m, w) :: d, p, h => by
    rw [Dict.set] at h
    split at h
    · rw [List.mem_cons] at h
      rcases h with rfl | h
      · exact .inl rfl
      · exact .inr (by simp [h])
    · split at h
      · rw [List.mem_cons] at h
        rcases h with rfl | h
        · exact .inl rfl
        · exact .inr h
      · rw [List.mem_cons] at h
        rcases h with rfl | h
        · exact .inr (by simp)
        · rcases set_mem n v d p h with h | h
          · exact .inl h
          · exact .inr (by simp [h])

theorem add_names : ∀ (new g : Groups), Increasing g → Increasing (g.add new) ∧
    ∀ p ∈ g.add new, (∃ q ∈ new, q.1 = p.1) ∨ ∃ q ∈ g, q.1 = p.1
  | [], g, h => ⟨h, fun p hp => .inr ⟨p, hp, rfl⟩⟩
  | q :: new, g, h => by
    have st : ∀ v : List UInt8, Increasing (Groups.add (g.set q.1 v) new) ∧ ∀ p ∈ Groups.add (g.set q.1 v) new,
        (∃ r ∈ q :: new, r.1 = p.1) ∨ ∃ r ∈ g, r.1 = p.1 := by
      intro v
      obtain ⟨h1, h2⟩ := add_names new (g.set q.1 v) (increasing_set q.1 v g h).1
      refine ⟨h1, fun p hp => ?_⟩
      rcases h2 p hp with ⟨r, hr, e⟩ | ⟨r, hr, e⟩
      · exact .inl ⟨r, by simp [hr], e⟩
      · rcases set_mem _ _ _ _ hr with e2 | hr
        · exact .inl ⟨q, by simp, e2.symm.trans e⟩
        · exact .inr ⟨r, hr, e⟩
    have e : g.add (q :: new) = Groups.add (match g.get q.1 with
      | some v => g.set q.1 (v ++ q.2)
      | none => g.set q.1 q.2) new := rfl
    rw [e]
    cases g.get q.1 with
    | none => exact st _
    | some v => exact st _

theorem get_mem {T : Type} (n : Name) : ∀ d : Dict T, (∃ p ∈ d, p.1 = n) ↔ (d.get n).isSome
  | [] => by simp [Dict.get]
  | (m, w) :: d => by
    rw [Dict.get]
    by_cases h : m = n
    · simp [h]
    · rw [if_neg h, ← get_mem n d]
      simp [h]

theorem get_of_mem {T : Type} {n : Name} {v : T} {d : Dict T} (h : Increasing d) (hm : (n, v) ∈ d) : d.get n = some v := by
  have hn := increasing_nodup d h
  clear h
  induction d with
  | nil => cases hm
  | cons p d ih =>
    obtain ⟨m, w⟩ := p
    rw [Dict.get]
    rw [List.map_cons, List.nodup_cons] at hn
    rw [List.mem_cons] at hm
    rcases hm with e | hm
    · cases e; rw [if_pos rfl]
    · rw [if_neg, ih hm hn.2]
      intro e
      exact hn.1 (List.mem_map.2 ⟨_, hm, e.symm⟩)

/-- The groups after calls. -/
def groupsAfter (g : Groups) : List (GCall M) → Groups
  | [] => g
  | .add h :: cs => groupsAfter (g.add h) cs
  | _ :: cs => groupsAfter g cs

theorem get_after (n : Name) : ∀ (cs : List (UCall M)) (g : Groups), Increasing g →
    (groupsAfter g (cs.map UCall.call)).get n = more (g.get n) (membersOf n cs) ∧ Increasing (groupsAfter g (cs.map UCall.call)) ∧
      ∀ p ∈ groupsAfter g (cs.map UCall.call), (∃ gs q, .add gs ∈ cs ∧ q ∈ gs ∧ q.1 = p.1) ∨ ∃ q ∈ g, q.1 = p.1
  | [], g, h => ⟨rfl, h, fun p hp => .inr ⟨p, hp, rfl⟩⟩
  | .file c :: cs, g, h => by
    obtain ⟨a, b, d⟩ := get_after n cs g h
    refine ⟨a, b, fun p hp => ?_⟩
    rcases d p hp with ⟨gs, q, h1, h2⟩ | h1
    · exact .inl ⟨gs, q, by simp [h1], h2⟩
    · exact .inr h1
  | .writeGroups :: cs, g, h => by
    obtain ⟨a, b, d⟩ := get_after n cs g h
    refine ⟨a, b, fun p hp => ?_⟩
    rcases d p hp with ⟨gs, q, h1, h2⟩ | h1
    · exact .inl ⟨gs, q, by simp [h1], h2⟩
    · exact .inr h1
  | .add gs :: cs, g, h => by
    obtain ⟨i1, i2⟩ := add_names (gs.map fun p => (p.1, textOf p.2)) g h
    obtain ⟨a, b, d⟩ := get_after n cs (g.add (gs.map fun p => (p.1, textOf p.2))) i1
    refine ⟨?_, b, fun p hp => ?_⟩
    · have e : membersOf n (.add gs :: cs) = joined (entriesOf n gs) (membersOf n cs) := by
        rw [membersOf]
        unfold entriesOf
        cases gs.filter fun p => decide (p.1 = n) with
        | nil => rfl
        | cons q l => rfl
      rw [e, ← more_joined, ← get_add]
      exact a
    · rcases d p hp with ⟨gs', q, h1, h2⟩ | ⟨q, h1, h2⟩
      · exact .inl ⟨gs', q, by simp [h1], h2⟩
      · rcases i2 q h1 with ⟨r, hr, e⟩ | ⟨r, hr, e⟩
        · obtain ⟨x, hx, rfl⟩ := List.mem_map.1 hr
          exact .inl ⟨gs, x, by simp, hx, e.trans h2⟩
        · exact .inr ⟨r, hr, e.trans h2⟩

theorem members_fit (n : Name) : ∀ (cs : List (UCall M)), (∀ gs, .add gs ∈ cs → ∀ p ∈ gs, ∀ m ∈ p.2, m.Fits) →
    ∀ ms, membersOf n cs = some ms → ∀ m ∈ ms, m.Fits
  | [], _, ms, h => by simp [membersOf] at h
  | .file c :: cs, H, ms, h => members_fit n cs (fun gs hg => H gs (by simp [hg])) ms h
  | .writeGroups :: cs, H, ms, h => members_fit n cs (fun gs hg => H gs (by simp [hg])) ms h
  | .add gs :: cs, H, ms, h => by
    have ih := members_fit n cs (fun gs hg => H gs (by simp [hg]))
    rw [membersOf] at h
    split at h
    · exact ih ms h
    · next l hl =>
      cases h
      intro m hm
      rw [List.mem_append] at hm
      rcases hm with hm | hm
      · obtain ⟨l2, h2, hm⟩ := List.mem_flatten.1 hm
        obtain ⟨p, hp, rfl⟩ := List.mem_map.1 h2
        exact H gs (by simp) p (List.mem_of_mem_filter hp) m hm
      · cases hx : membersOf n cs with
        | none => simp [hx] at hm
        | some x =>
          rw [hx] at hm
          exact ih x hx m hm

/-! ## Writing and reading back -/

theorem groups_written {g : Groups} (hi : Increasing g) (hn : ∀ p ∈ g, p.1 ≠ [] ∧ (0 : UInt8) ∉ p.1 ∧ p.1 ≠ kIsMembership) :
    groupsWriter g .new = (.ok, .group ((kIsMembership, .str [49]) :: g.map fun p => (p.1, .str p.2)) []) := by
  have := all_attrs ((kIsMembership, .str [49]) :: g.map fun p => (p.1, .str p.2)) [] [] ?_ ?_
  · rw [List.map_cons, List.map_map] at this
    exact this
  · intro p hp
    rw [List.mem_cons] at hp
    rcases hp with rfl | hp
    · exact ⟨by decide, by decide⟩
    · obtain ⟨q, hq, rfl⟩ := List.mem_map.1 hp
      exact ⟨cstr_plain _ (hn q hq).2.1, (hn q hq).1⟩
  · rw [List.nil_append, List.map_cons, List.map_map, List.nodup_cons]
    refine ⟨?_, increasing_nodup g hi⟩
    intro h
    obtain ⟨q, hq, e⟩ := List.mem_map.1 h
    exact (hn q hq).2.2 e

theorem attrs_back (val : Name → Option (List UInt8)) : ∀ (as : List (Name × Attr)) (g : Groups),
    (∀ p ∈ as, p.1 ≠ kIsMembership → ∃ s, p.2 = .str s ∧ memberText (tokens (cstr s)) = val p.1 ∧ (val p.1).isSome) →
    ∃ G, readGroupAttrs as g = some G ∧
      ∀ n, ((∃ p ∈ as, p.1 = n) → n ≠ kIsMembership → G.get n = val n) ∧
        ((∀ p ∈ as, p.1 = n → n = kIsMembership) → G.get n = g.get n)
  | [], g, _ => ⟨g, rfl, fun n => ⟨fun ⟨p, hp, _⟩ => (nomatch hp), fun _ => rfl⟩⟩
  | p :: as, g, h => by
    have h' := fun q (hq : q ∈ as) => h q (by simp [hq])
    rw [readGroupAttrs]
    by_cases hk : p.1 = kIsMembership
    · rw [if_pos hk]
      obtain ⟨G, e, hG⟩ := attrs_back val as g h'
      refine ⟨G, e, fun n => ⟨?_, fun hh => (hG n).2 fun q hq => hh q (by simp [hq])⟩⟩
      rintro ⟨q, hq, rfl⟩ hne
      rw [List.mem_cons] at hq
      rcases hq with rfl | hq
      · exact absurd hk hne
      · exact (hG _).1 ⟨q, hq, rfl⟩ hne
    · rw [if_neg hk]
      obtain ⟨s, e1, e2, e3⟩ := h p (by simp) hk
      rw [e1]
      simp only [e2]
      obtain ⟨t, ht⟩ := Option.isSome_iff_exists.1 e3
      rw [ht]
      simp only
      obtain ⟨G, e, hG⟩ := attrs_back val as (g.set p.1 t) h'
      refine ⟨G, e, fun n => ⟨?_, fun hh => ?_⟩⟩
      · rintro ⟨q, hq, rfl⟩ hne
        by_cases hin : ∃ r ∈ as, r.1 = q.1
        · exact (hG _).1 hin hne
        · rw [List.mem_cons] at hq
          rcases hq with rfl | hq
          · rw [(hG _).2 fun r hr e => absurd ⟨r, hr, e⟩ hin, get_set, if_pos rfl, ht]
          · exact absurd ⟨q, hq, rfl⟩ hin
      · rw [(hG n).2 fun q hq => hh q (by simp [hq]), get_set, if_neg]
        intro e
        exact hk (by rw [e]; exact hh p (by simp) e)

theorem named_here {ex : List (Name × Obj)} {G : Obj} {a b : Obj} (E : Extra ex a b) (h : ex = [(kMembership, G)]) :
    named kMembership b.links = some G := by
  obtain ⟨as, l1, l2, rfl, rfl, he, hu⟩ := E
  subst h
  have : named kMembership l1 = none := named_none.2 fun p hp => (hu p (by simp [hp])).2
  simp [Obj.links, named_append, this, named]

theorem named_not {a b : Obj} (E : Extra [] a b) : named kMembership b.links = none := by
  obtain ⟨as, l1, l2, rfl, rfl, he, hu⟩ := E
  exact named_none.2 fun p hp => (hu p (by simpa [Obj.links] using hp)).2

/-! ## Runs -/

theorem grun_append (C : MapIO M) : ∀ (a b : List (GCall M)) (o : GOut M), o.run C (a ++ b) =
    (o.run C a).bind fun x => (x.2.run C b).map fun y => (x.1 ++ y.1, y.2)
  | [], b, o => by simp [GOut.run]
  | c :: a, b, o => by
    rw [List.cons_append, GOut.run, GOut.run]
    generalize o.step C c = x
    obtain ⟨r, o1⟩ := x
    have ih := grun_append C a b o1
    cases r with
    | crash => rfl
    | _ =>
      simp only [ih]
      cases o1.run C a with
      | none => rfl
      | some x =>
        simp only [Option.bind_some, Option.map_some]
        cases x.2.run C b <;> simp

theorem orun_append (C : MapIO M) : ∀ (a b : List (Call M)) (o : Out M), o.run C (a ++ b) =
    (o.run C a).bind fun x => (x.2.run C b).map fun y => (x.1 ++ y.1, y.2)
  | [], b, o => by simp [Out.run]
  | c :: a, b, o => by
    rw [List.cons_append, Out.run, Out.run]
    generalize o.step C c = x
    obtain ⟨r, o1⟩ := x
    have ih := orun_append C a b o1
    cases r with
    | crash => rfl
    | _ =>
      simp only [ih]
      cases o1.run C a with
      | none => rfl
      | some x =>
        simp only [Option.bind_some, Option.map_some]
        cases x.2.run C b <;> simp

theorem grun_groups (C : MapIO M) : ∀ (cs : List (GCall M)) (o o1 : GOut M) (rs : List Ret), o.run C cs = some (rs, o1) →
    o1.groups = groupsAfter o.groups cs
  | [], o, o1, rs, h => by simp only [GOut.run, Option.some.injEq, Prod.mk.injEq] at h; rw [← h.2]; rfl
  | c :: cs, o, o1, rs, h => by
    have hs := groups_state C (o := o) (c := c)
    rw [GOut.run] at h
    revert h hs
    generalize o.step C c = x
    obtain ⟨r, o2⟩ := x
    intro h hs
    have main : ∃ rs', o2.run C cs = some (rs', o1) := by
      cases r with
      | crash => simp at h
      | _ =>
        simp only [Option.map_eq_some_iff] at h
        obtain ⟨⟨rs', o3⟩, h1, h2⟩ := h
        cases h2
        exact ⟨rs', h1⟩
    obtain ⟨rs', h1⟩ := main
    rw [grun_groups C cs o2 o1 rs' h1]
    simp only at hs
    rw [hs]
    cases c <;> rfl

theorem files_append : ∀ (a b : List (GCall M)), fileCallsOf (a ++ b) = fileCallsOf a ++ fileCallsOf b
  | [], b => rfl
  | .file c :: a, b => by rw [List.cons_append, fileCallsOf, fileCallsOf, files_append a b]; rfl
  | .add g :: a, b => files_append a b
  | .writeGroups :: a, b => files_append a b

theorem mem_files {c : Call M} : ∀ {cs : List (GCall M)}, c ∈ fileCallsOf cs ↔ GCall.file c ∈ cs
  | [] => by simp [fileCallsOf]
  | .file d :: cs => by simp [fileCallsOf, mem_files (cs := cs)]
  | .add g :: cs => by simp [fileCallsOf, mem_files (cs := cs)]
  | .writeGroups :: cs => by simp [fileCallsOf, mem_files (cs := cs)]

/-- Without `writeGroupMembership` there is no more link. -/
theorem run_without (C : MapIO M) : ∀ (cs : List (GCall M)) (o : Out M) (o' : GOut M), Beside [] o o'.out → GSession cs →
    GNames cs → GCall.writeGroups ∉ cs → ∀ rs o1, o.run C (fileCallsOf cs) = some (rs, o1) →
    ∃ rs' o1', o'.run C cs = some (rs', o1') ∧ Beside [] o1 o1'.out ∧ rs'.length = cs.length ∧ fileResultsOf cs rs' = rs
  | [], o, o', B, _, _, _, rs, o1, h => by
    simp only [fileCallsOf, Out.run, Option.some.injEq, Prod.mk.injEq] at h
    obtain ⟨rfl, rfl⟩ := h
    exact ⟨[], o', rfl, B, rfl, rfl⟩
  | .file c :: cs, o, o', B, hs, hn, hw, rs, o1, h => by
    have k := alike_file C (hs c (by simp)) (fun w e => hn w (by simp [e])) B
    rw [fileCallsOf, Out.run] at h
    rw [GOut.run, GOut.step]
    revert h
    revert k
    generalize o.step C c = x
    generalize o'.out.step C c = y
    obtain ⟨x1, x2⟩ := x
    obtain ⟨y1, y2⟩ := y
    rintro ⟨e, B1⟩
    simp only at e B1
    subst e
    have main := run_without C cs x2 { o' with out := y2 } B1 (gsession_tail hs) (fun w hw => hn w (by simp [hw]))
      (fun hm => hw (by simp [hm]))
    intro h
    cases x1 with
    | crash => simp at h
    | _ =>
      simp only [Option.map_eq_some_iff] at h
      obtain ⟨⟨rs0, o0⟩, h0, h1⟩ := h
      simp only [Prod.mk.injEq] at h1
      obtain ⟨rfl, rfl⟩ := h1
      obtain ⟨rs', o1', e1, e4, e5, e6⟩ := main rs0 _ h0
      exact ⟨_, o1', by simp only [e1, Option.map_some]; rfl, e4, by simp [e5], by rw [fileResultsOf, e6]⟩
  | .add g :: cs, o, o', B, hs, hn, hw, rs, o1, h => by
    obtain ⟨rs', o1', e1, e4, e5, e6⟩ := run_without C cs o { o' with groups := o'.groups.add g } B
      (gsession_tail hs) (fun w hw => hn w (by simp [hw])) (fun hm => hw (by simp [hm])) rs o1 h
    exact ⟨_, o1', by rw [GOut.run, GOut.step]; simp only [e1, Option.map_some]; rfl, e4, by simp [e5], by rw [← e6]; rfl⟩
  | .writeGroups :: cs, o, o', B, hs, hn, hw, rs, o1, h => absurd (by simp) hw

end Hdf5
end F3D

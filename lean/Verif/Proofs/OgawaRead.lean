import Verif.Proofs.OgawaInv

/-! Reading: light and full groups, and reading back what the invariant says is in the file. -/

namespace F3D.Ogawa

theorem words_length (n : Nat) (bs : List UInt8) : (words n bs).length = n := by
  induction n generalizing bs with
  | zero => rfl
  | succ n ih => simp [words, ih]

theorem words_get (n : Nat) (bs : List UInt8) (i : Nat) (h : i < n) :
    (words n bs)[i]? = some (unle ((bs.drop (8 * i)).take 8)) := by
  induction n generalizing bs i with
  | zero => omega
  | succ n ih =>
    cases i with
    | zero => simp [words]
    | succ i =>
      simp only [words, List.getElem?_cons_succ]
      rw [ih _ i (by omega), List.drop_drop, show 8 + 8 * i = 8 * (i + 1) from by omega]

theorem mapM_some {α β} (l : List α) (f : α → Option β) (g : α → β) (h : ∀ x ∈ l, f x = some (g x)) :
    l.mapM f = some (l.map g) := by
  induction l with
  | nil => rfl
  | cons a l ih =>
    rw [List.mapM_cons, h a (by simp), ih (fun x hx => h x (by simp [hx]))]
    rfl

theorem mapM_congr_some {α β} (l : List α) (f g : α → Option β) (t : List β) (hf : l.mapM f = some t)
    (h : ∀ x ∈ l, ∀ y, f x = some y → g x = some y) : l.mapM g = some t := by
  induction l generalizing t with
  | nil => simpa using hf
  | cons a l ih =>
    rw [List.mapM_cons] at hf ⊢
    rcases ha : f a with _ | b
    · rw [ha] at hf; simp at hf
    · rcases hl : l.mapM f with _ | u
      · rw [ha, hl] at hf; simp at hf
      · rw [h a (by simp) b ha, ih u hl (fun x hx => h x (by simp [hx]))]
        rw [ha, hl] at hf
        exact hf

theorem readAt_sub (f : File) (p k a m : Nat) (bs : List UInt8) (h : readAt f p k = some bs) (hm : a + m ≤ k) :
    readAt f (p + a) m = some ((bs.drop a).take m) := by
  unfold readAt at *
  split at h
  · rw [if_pos (by omega)]
    simp only [Option.some.injEq] at h
    subst h
    rw [List.drop_take, List.take_take, List.drop_drop, Nat.min_eq_left (by omega)]
  · simp at h

theorem open_full {f : File} {pos : Nat} {g : IGroup} (h : IGroup.open f pos false = some g) :
    (pos = 0 ∧ g = ⟨0, 0, []⟩) ∨ (pos ≠ 0 ∧ ∃ c bs, readAt f pos 8 = some c ∧ readAt f (pos + 8) (unle c * 8) = some bs ∧
      g = ⟨pos, unle c, words (unle c) bs⟩) := by
  unfold IGroup.open at h
  by_cases h0 : pos = 0
  · rw [if_pos h0] at h; simp at h; exact Or.inl ⟨h0, h.symm⟩
  · rw [if_neg h0] at h
    refine Or.inr ⟨h0, ?_⟩
    rcases hc : readAt f pos 8 with _ | c
    · rw [hc] at h; simp at h
    · rw [hc] at h
      simp only [Bool.not_false, Bool.true_or, if_true] at h
      rcases hb : readAt f (pos + 8) (unle c * 8) with _ | bs
      · simp [hb] at h
      · simp [hb] at h; exact ⟨c, bs, rfl, hb, h.symm⟩

/-- What a group open in either mode holds. -/
theorem open_light {f : File} {pos : Nat} {g : IGroup} (h : IGroup.open f pos false = some g) :
    ∃ gl, IGroup.open f pos true = some gl ∧ gl.num = g.num ∧
      (gl = g ∨ (gl.isLight = true ∧ g.isLight = false ∧ gl.pos = pos ∧ g.kids.length = g.num ∧
        ∀ i s, g.kids[i]? = some s → ∃ bs, readAt f (pos + 8 * i + 8) 8 = some bs ∧ unle bs = s)) := by
  rcases open_full h with ⟨h0, rfl⟩ | ⟨h0, c, bs, hc, hb, rfl⟩
  · exact ⟨⟨0, 0, []⟩, by simp [IGroup.open, h0], rfl, Or.inl rfl⟩
  · by_cases hn : unle c < 9
    · refine ⟨⟨pos, unle c, words (unle c) bs⟩, ?_, rfl, Or.inl rfl⟩
      simp [IGroup.open, h0, hc, hn, hb]
    · refine ⟨⟨pos, unle c, []⟩, ?_, rfl, Or.inr ⟨?_, ?_, rfl, ?_, ?_⟩⟩
      · simp [IGroup.open, h0, hc, hn]
      · simp [IGroup.isLight]; omega
      · have : words (unle c) bs ≠ [] := by
          intro e; have := words_length (unle c) bs; rw [e] at this; simp at this; omega
        simp [IGroup.isLight, this]
      · exact words_length _ _
      · intro i s hs
        have hi : i < unle c := by
          have := lt_of_getElem? hs
          rw [words_length] at this; exact this
        simp only [words_get _ _ _ hi, Option.some.injEq] at hs
        refine ⟨_, ?_, hs⟩
        have := readAt_sub f (pos + 8) (unle c * 8) (8 * i) 8 bs hb (by omega)
        rw [show pos + 8 * i + 8 = pos + 8 + 8 * i from by omega]
        exact this

theorem getGroup_full (g : IGroup) (f : File) (i : Nat) (light : Bool) (h : g.isLight = false) :
    g.getGroup f i light = match g.kids[i]? with
      | some s => if s &&& emptyData = 0 then (IGroup.open f s light).map some else some none
      | none => some none := by
  unfold IGroup.getGroup IGroup.isChildGroup
  rw [h]
  rcases hs : g.kids[i]? with _ | s
  · simp
  · simp only [Bool.false_eq_true, if_false, decide_eq_true_eq]
    by_cases h0 : s &&& emptyData = 0
    · simp [h0, List.getD, hs]
    · simp [h0]

theorem getData_full (g : IGroup) (f : File) (i : Nat) (h : g.isLight = false) :
    g.getData f i = match g.kids[i]? with
      | some s => if s &&& emptyData ≠ 0 then (IData.open f s).map some else some none
      | none => some none := by
  unfold IGroup.getData IGroup.isChildData
  rw [h]
  rcases hs : g.kids[i]? with _ | s
  · simp
  · simp only [Bool.false_eq_true, if_false, decide_eq_true_eq]
    by_cases h0 : s &&& emptyData = 0
    · simp [h0]
    · simp [h0, List.getD, hs]

theorem light_children {f : File} {pos : Nat} {g gl : IGroup} (h : IGroup.open f pos false = some g)
    (hl : IGroup.open f pos true = some gl) :
    gl.num = g.num ∧ ∀ i, (∀ light, gl.getGroup f i light = g.getGroup f i light) ∧ gl.getData f i = g.getData f i := by
  obtain ⟨gl', h1, h2, h3⟩ := open_light h
  rw [h1] at hl; simp only [Option.some.injEq] at hl; subst hl
  refine ⟨h2, fun i => ?_⟩
  rcases h3 with rfl | ⟨hL, hF, hp, hk, hs⟩
  · exact ⟨fun _ => rfl, rfl⟩
  · rw [getData_full g f i hF]
    rcases hi : g.kids[i]? with _ | s
    · have hge : ¬ i < gl'.num := by
        intro hlt
        rw [h2, ← hk] at hlt
        rw [List.getElem?_eq_getElem hlt] at hi; simp at hi
      refine ⟨fun light => ?_, ?_⟩
      · rw [getGroup_full g f i light hF, hi]
        simp [IGroup.getGroup, hL, hge]
      · simp [IGroup.getData, hL, hge]
    · obtain ⟨bs, hr, hb⟩ := hs i s hi
      have hlt : i < gl'.num := by rw [h2, ← hk]; exact lt_of_getElem? hi
      refine ⟨fun light => ?_, ?_⟩
      · rw [getGroup_full g f i light hF, hi]
        simp [IGroup.getGroup, hL, hlt, hp, hr, hb]
      · simp [IGroup.getData, hL, hlt, hp, hr, hb]

theorem full_not_light {f : File} {pos : Nat} {g : IGroup} (hg : IGroup.open f pos false = some g) : g.isLight = false := by
  rcases open_full hg with ⟨-, rfl⟩ | ⟨h0, c, bs, -, -, rfl⟩
  · rfl
  · simp only [IGroup.isLight, decide_eq_false_iff_not]
    rintro ⟨a, b⟩
    have := words_length (unle c) bs
    rw [b] at this; exact a this.symm

theorem explore_light {f : File} (n : Nat) : ∀ {pos : Nat} {g gl : IGroup} {t : Tree}, IGroup.open f pos false = some g →
    (gl.num = g.num ∧ ∀ i, (∀ light, gl.getGroup f i light = g.getGroup f i light) ∧ gl.getData f i = g.getData f i) →
    explore f false n g = some t → explore f true n gl = some t := by
  induction n with
  | zero => intro pos g gl t _ _ h; exact h
  | succ n ih =>
    intro pos g gl t hg hgl h
    obtain ⟨hn, hc⟩ := hgl
    simp only [explore] at h ⊢
    rw [hn]
    rw [Option.map_eq_some_iff] at h ⊢
    obtain ⟨l, h1, h2⟩ := h
    refine ⟨l, mapM_congr_some _ _ _ _ h1 ?_, h2⟩
    intro i _ y hy
    rw [(hc i).1, (hc i).2]
    have hF := full_not_light hg
    rw [getGroup_full g f i _ hF] at hy ⊢
    rcases hs : g.kids[i]? with _ | s
    · rw [hs] at hy; exact hy
    · rw [hs] at hy
      dsimp only at hy ⊢
      by_cases h0 : s &&& emptyData = 0
      · rw [if_pos h0] at hy ⊢
        rcases ho : IGroup.open f s false with _ | h'
        · simp [ho] at hy
        · simp only [ho, Option.map_some] at hy
          obtain ⟨hl', a, -, -⟩ := open_light ho
          rw [a]
          exact ih ho (light_children ho a) hy
      · rw [if_neg h0] at hy ⊢; exact hy

/-! ## Slots -/

theorem pos_and (p : Nat) (h : p < 2 ^ 63) : p &&& emptyData = 0 := by
  unfold emptyData
  apply Nat.eq_of_testBit_eq
  intro i
  rw [Nat.testBit_and, Nat.testBit_two_pow]
  by_cases e : 63 = i
  · subst e; rw [Nat.testBit_lt_two_pow h]; simp
  · simp [e]

theorem data_and (p : Nat) (h : p < 2 ^ 63) : (p ||| emptyData) &&& emptyData ≠ 0 := by
  unfold emptyData
  intro e
  have := congrArg (Nat.testBit · 63) e
  simp only [Nat.testBit_and, Nat.testBit_or, Nat.testBit_two_pow_self] at this
  simp at this

theorem data_pos (p : Nat) (h : p < 2 ^ 63) : (p ||| emptyData) &&& invalidGroup = p := by
  unfold emptyData invalidGroup
  have := Nat.two_pow_add_eq_or_of_lt h 1
  rw [Nat.and_two_pow_sub_one_eq_mod, Nat.or_comm, show (2 : Nat) ^ 63 ||| p = 2 ^ 63 * 1 ||| p from by rw [Nat.mul_one],
    ← this]
  omega

theorem data_lt (p : Nat) (h : p < 2 ^ 63) : p ||| emptyData < 2 ^ 64 :=
  Nat.or_lt_two_pow (by omega) (by decide)

theorem rec_le (fl root rs r x) (h : rs[r]? = some x) :
    posOf rs r + x.enc.length ≤ (layout fl root rs).length := by
  rw [layout_length, ← posOf_succ rs r x h]
  exact posOf_mono rs (lt_of_getElem? h)

theorem posOf_ge (rs r) : 16 ≤ posOf rs r := by unfold posOf; omega

section
variable {gs : List OGroup} {d : Doc} {rs : List Rec} {fl : UInt8} {root : Nat}

theorem slotOf_lt (hI : Inv gs d rs) (hL : (layout fl root rs).length < 2 ^ 63) (h : Nat) : slotOf gs h < 2 ^ 63 := by
  unfold slotOf
  rcases hg : gs[h]? with _ | o
  · simp
  · rcases hp : o.pos with _ | p
    · simp [hp]
    · simp only [Option.bind_some, hp, Option.getD_some]
      rcases hI.recd h o p hg hp with ⟨-, rfl⟩ | ⟨-, r, hr, rfl⟩
      · omega
      · have := rec_le fl root rs r _ hr
        omega

theorem slot_lt (hI : Inv gs d rs) (hL : (layout fl root rs).length < 2 ^ 63) {s it} (hs : SlotOk (slotOf gs) rs s it) :
    s < 2 ^ 64 := by
  cases it with
  | data bs =>
    obtain ⟨h0, r, hr, rfl⟩ := hs
    have := rec_le fl root rs r _ hr
    exact data_lt _ (by omega)
  | emptyData => rw [show s = emptyData from hs]; decide
  | emptyGroup => rw [show s = 0 from hs]; decide
  | group h =>
    have := slotOf_lt hI hL h
    rw [show s = slotOf gs h from hs]; omega

/-- A frozen group is read back with its slots. -/
theorem open_frozen (hI : Inv gs d rs) (hL : (layout fl root rs).length < 2 ^ 63) {g : Nat} {o : OGroup} {p : Nat}
    (hg : gs[g]? = some o) (hp : o.pos = some p) :
    ∃ ig, IGroup.open (layout fl root rs) p false = some ig ∧ ig.num = o.kids.length ∧ ig.kids = o.kids ∧ ig.isLight = false := by
  rcases hI.recd g o p hg hp with ⟨hk, rfl⟩ | ⟨hk, r, hr, rfl⟩
  · exact ⟨⟨0, 0, []⟩, rfl, by simp [hk], by simp [hk], rfl⟩
  · have hle := rec_le fl root rs r _ hr
    have hp16 := posOf_ge rs r
    have hfl := flatMap_le64_length o.kids
    have hel : (Rec.group g o.kids).enc.length = 8 + o.kids.length * 8 := by simp [Rec.enc, hfl]
    rw [hel] at hle
    have h1 : readAt (layout fl root rs) (posOf rs r) 8 = some (le64 o.kids.length) := by
      rw [readAt_count _ _ _ _ _ hr]
      simp only [Rec.enc]
      rw [List.take_append_of_le_length (by simp), List.take_of_length_le (by simp)]
    have h2 : readAt (layout fl root rs) (posOf rs r + 8) (o.kids.length * 8) = some (o.kids.flatMap le64) := by
      rw [readAt_rec _ _ _ _ _ hr 8 _ (by omega)]
      simp only [Rec.enc]
      rw [List.drop_append_of_le_length (by simp), List.drop_of_length_le (by simp), List.nil_append,
        List.take_of_length_le (by omega)]
    have hu : unle (le64 o.kids.length) = o.kids.length := unle_le64 _ (by omega)
    have hw : words o.kids.length (o.kids.flatMap le64) = o.kids := by
      have := words_flatMap o.kids ?_ []
      · simpa using this
      · intro x hx
        obtain ⟨i, hi, rfl⟩ := List.getElem_of_mem hx
        have hi' : i < (d.items g).length := by rw [← hI.kidsLen g o hg]; exact hi
        exact slot_lt hI hL (hI.kids g o hg i _ _ (List.getElem?_eq_getElem hi) (List.getElem?_eq_getElem hi'))
    refine ⟨⟨posOf rs r, o.kids.length, o.kids⟩, ?_, rfl, rfl, by simp [IGroup.isLight, hk]⟩
    unfold IGroup.open
    rw [if_neg (by omega), h1]
    simp only [Option.bind_eq_bind, Option.bind_some, Bool.not_false, Bool.true_or, if_true, hu, h2, hw]

theorem mapM_items {β} (n : Nat) (its : List Item) (hn : n = its.length) (F : Nat → Option β) (T : Item → β)
    (h : ∀ i it, its[i]? = some it → F i = some (T it)) : (List.range n).mapM F = some (its.map T) := by
  have := mapM_some (List.range n) F (fun i => T (its.getD i .emptyData)) ?_
  · rw [this]
    congr 1
    apply List.ext_getElem?
    intro i
    simp only [List.getElem?_map]
    by_cases hi : i < n
    · rw [List.getElem?_range hi, List.getElem?_eq_getElem (by omega : i < its.length)]
      simp [List.getD, List.getElem?_eq_getElem (by omega : i < its.length)]
    · rw [List.getElem?_eq_none (by simp; omega), List.getElem?_eq_none (by omega : its.length ≤ i)]; rfl
  · intro i hi
    have hi' : i < its.length := by rw [← hn]; simpa using hi
    rw [h i its[i] (List.getElem?_eq_getElem hi')]
    simp [List.getD, List.getElem?_eq_getElem hi']

theorem readAll_data (hL : (layout fl root rs).length < 2 ^ 63) {r : Nat} {bs : List UInt8} (hr : rs[r]? = some (.data bs))
    (hb : bs ≠ []) : ∃ dd, IData.open (layout fl root rs) (posOf rs r ||| emptyData) = some dd ∧
      dd.size = bs.length ∧ readAll (layout fl root rs) dd = some bs := by
  have hle := rec_le fl root rs r _ hr
  have hp16 := posOf_ge rs r
  have hel : (Rec.data bs).enc.length = 8 + bs.length := by simp [Rec.enc]
  rw [hel] at hle
  have hb0 : bs.length ≠ 0 := by simpa using hb
  have h1 : readAt (layout fl root rs) (posOf rs r) 8 = some (le64 bs.length) := by
    rw [readAt_count _ _ _ _ _ hr]
    simp only [Rec.enc]
    rw [List.take_append_of_le_length (by simp), List.take_of_length_le (by simp)]
  have h2 : readAt (layout fl root rs) (posOf rs r + 8) bs.length = some bs := by
    rw [readAt_rec _ _ _ _ _ hr 8 _ (by omega)]
    simp only [Rec.enc]
    rw [List.drop_append_of_le_length (by simp), List.drop_of_length_le (by simp), List.nil_append,
      List.take_of_length_le (by omega)]
  refine ⟨⟨posOf rs r, bs.length⟩, ?_, rfl, ?_⟩
  · simp only [IData.open, data_pos _ (show posOf rs r < 2 ^ 63 by omega)]
    rw [if_neg (by omega), h1, Option.map_some, unle_le64 _ (by omega)]
  · simp only [readAll, IData.read]
    have hm1 : (0 + bs.length) % 2 ^ 64 = bs.length := by omega
    have hm2 : (posOf rs r + 0 + 8) % 2 ^ 64 = posOf rs r + 8 := by omega
    rw [if_neg hb0, if_neg (by omega), hm2, h2]
    rfl

/-- The reader sees the document. -/
theorem explore_frozen (hI : Inv gs d rs) (hL : (layout fl root rs).length < 2 ^ 63) (n : Nat) :
    ∀ {g : Nat} {o : OGroup} {p : Nat} {ig : IGroup}, gs[g]? = some o → o.pos = some p →
    IGroup.open (layout fl root rs) p false = some ig →
    explore (layout fl root rs) false n ig = some (treeOf d n g) := by
  induction n with
  | zero => intros; rfl
  | succ n ih =>
    intro g o p ig hg hp hig
    obtain ⟨ig', h1, h2, h3, h4⟩ := open_frozen hI hL hg hp
    rw [h1] at hig; simp only [Option.some.injEq] at hig; subst hig
    simp only [explore, treeOf]
    rw [mapM_items _ (d.items g) (by rw [h2, hI.kidsLen g o hg]) _ _ ?_]
    · rfl
    · intro i it hit
      have hi : i < o.kids.length := by rw [hI.kidsLen g o hg]; exact lt_of_getElem? hit
      have hk : ig'.kids[i]? = some o.kids[i] := by rw [h3]; exact List.getElem?_eq_getElem hi
      have hok := hI.kids g o hg i _ it (List.getElem?_eq_getElem hi) hit
      rw [getGroup_full _ _ _ _ h4, getData_full _ _ _ h4, hk]
      generalize o.kids[i] = s at hok
      dsimp only
      cases it with
      | data bs =>
        obtain ⟨hb, r, hr, rfl⟩ := hok
        have hle := rec_le fl root rs r _ hr
        have hd := data_and (posOf rs r) (by omega)
        obtain ⟨dd, a, -, b⟩ := readAll_data (fl := fl) (root := root) hL hr hb
        rw [if_neg hd, if_pos hd, a]
        simp [b]
      | emptyData =>
        have : s = emptyData := hok
        subst this
        rfl
      | emptyGroup =>
        have : s = 0 := hok
        subst this
        simp only [Nat.zero_and, if_true, IGroup.open, Option.map_some]
        cases n <;> rfl
      | group h =>
        have hs : s = slotOf gs h := hok
        subst hs
        rw [pos_and _ (slotOf_lt hI hL h), if_pos rfl]
        obtain ⟨oh, hoh, -⟩ := hI.chi g i h hit
        have hfr := hI.fro h oh hoh
        rcases hpos : oh.pos with _ | q
        · have : slotOf gs h = 0 := by simp [slotOf, hoh, hpos]
          rw [this]
          simp only [hfr, hpos, IGroup.open, if_true, Option.map_some, Option.isSome_none]
          cases n <;> rfl
        · have : slotOf gs h = q := by simp [slotOf, hoh, hpos]
          obtain ⟨ih', a, -⟩ := open_frozen hI hL hoh hpos
          rw [this, a]
          simp only [hfr, hpos, Option.map_some, Option.isSome_some, if_true]
          exact ih hoh hpos a

/-- Opening a file that represents a document. -/
theorem open_layout (hI : Inv gs d rs) (hL : (layout fl (slotOf gs 0) rs).length < 2 ^ 63) :
    ∃ ig, openArchive (layout fl (slotOf gs 0) rs) = .archive (decide (fl = 255)) ig ∧
      IGroup.open (layout fl (slotOf gs 0) rs) (slotOf gs 0) false = some ig := by
  have hopen : ∃ ig, IGroup.open (layout fl (slotOf gs 0) rs) (slotOf gs 0) false = some ig := by
    obtain ⟨o, ho, -⟩ := hI.root
    rcases hp : o.pos with _ | p
    · have : slotOf gs 0 = 0 := by simp [slotOf, ho, hp]
      rw [this]; exact ⟨⟨0, 0, []⟩, rfl⟩
    · have : slotOf gs 0 = p := by simp [slotOf, ho, hp]
      obtain ⟨ig, a, -⟩ := open_frozen hI hL ho hp
      rw [← this] at a
      exact ⟨ig, a⟩
  obtain ⟨ig, hig⟩ := hopen
  refine ⟨ig, ?_, hig⟩
  have hs := slotOf_lt hI hL 0
  have hl16 : 16 ≤ (layout fl (slotOf gs 0) rs).length := by simp [layout]
  have htake : (layout fl (slotOf gs 0) rs).take 16 = hdr fl (slotOf gs 0) := by
    rw [layout, List.take_append_of_le_length (by simp), List.take_of_length_le (by simp)]
  unfold openArchive
  rw [htake, show 16 - (layout fl (slotOf gs 0) rs).length = 0 from by omega]
  simp only [List.replicate_zero, List.append_nil]
  rw [if_pos (by simp [hdr])]
  have hv : ((hdr fl (slotOf gs 0)).getD 6 0).toNat * 256 + ((hdr fl (slotOf gs 0)).getD 7 0).toNat = 1 := by
    generalize slotOf gs 0 = z
    have h6 : (hdr fl z).getD 6 0 = 0 := rfl
    have h7 : (hdr fl z).getD 7 0 = 1 := rfl
    rw [h6, h7]; rfl
  rw [hv]
  have hu : unle ((hdr fl (slotOf gs 0)).drop 8) = slotOf gs 0 := by
    simp only [hdr, List.cons_append, List.nil_append, List.drop_succ_cons, List.drop_zero]
    exact unle_le64 _ (by omega)
  have h5 : (hdr fl (slotOf gs 0))[5]? = some fl := rfl
  rw [hu, hig, h5]
  simp

end

end F3D.Ogawa

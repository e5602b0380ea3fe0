import Verif.Proofs.Holes3
import Verif.Spec.Splice
import Verif.Proofs.Slices
import Verif.Props.Editing

/-!
# Members of a declaration: documents, and the edited texts
-/

namespace Dbml
open Syntax Source Spec Props

/-- What is known of a declaration. -/
def TopSeat (q : Piece) (r : Str) (p : Pair) (x : Block) : Prop :=
  p.span = q.span ∧ x.Ok ∧
  match x with
  | .project _ => p.rule = .project_decl
  | .table T => p.rule = .table_decl ∧ TableHoles q r p T
  | .enum E => p.rule = .enum_decl ∧ EnumHoles q r p E
  | .ref _ => p.rule = .ref_decl
  | .group g => p.rule = .table_group_decl ∧ GroupHoles q r p g
  | .note _ => p.rule = .note_decl

theorem TopSeat.not_eoi {q r p x} (h : TopSeat q r p x) : p.rule ≠ .EOI := by
  obtain ⟨-, -, h⟩ := h
  cases x <;> simp at h <;> simp [h]

theorem top_seats : Places G.top_decl BlockAcc
    (fun q r p => ∃ x : Block, Lay x.toks (q.txt ++ r) r ∧ TopSeat q r p x) := by
  refine .alt ?_ (.alt ?_ (.alt ?_ (.alt ?_ (.alt ?_ ?_))))
  · intro pos s c r ps h
    obtain ⟨p, rfl, hp⟩ := place_of project_lay rfl (fun x => breaks_block (.project x))
      (fun x => block_toks_ne (.project x)) _ _ _ _ _ h
    obtain ⟨kids, e, -⟩ := rule_okA h rfl
    refine ⟨p, rfl, fun hw => ?_⟩
    obtain ⟨h1, x, h2, h3, h4, h5⟩ := hp (hw.1 (by cases e; rfl))
    exact ⟨h1, .project x, h2, h3, h5, h4⟩
  · intro pos s c r ps h
    obtain ⟨p, rfl, hp⟩ := table_places _ _ _ _ _ h
    obtain ⟨kids, e, -⟩ := rule_okA h rfl
    refine ⟨p, rfl, fun hw => ?_⟩
    obtain ⟨h1, x, h2, h3, h4, h5, h6⟩ := hp (hw.2.1 (by cases e; rfl))
    exact ⟨h1, .table x, h2, h3, h5, h4, h6⟩
  · intro pos s c r ps h
    obtain ⟨p, rfl, hp⟩ := enum_places _ _ _ _ _ h
    obtain ⟨kids, e, -⟩ := rule_okA h rfl
    refine ⟨p, rfl, fun hw => ?_⟩
    obtain ⟨h1, x, h2, h3, h4, h5, h6⟩ := hp (hw.2.2.1 (by cases e; rfl))
    exact ⟨h1, .enum x, h2, h3, h5, h4, h6⟩
  · intro pos s c r ps h
    obtain ⟨p, rfl, hp⟩ := place_of ref_lay rfl (fun x => breaks_block (.ref x))
      (fun x => block_toks_ne (.ref x)) _ _ _ _ _ h
    obtain ⟨kids, e, -⟩ := rule_okA h rfl
    refine ⟨p, rfl, fun hw => ?_⟩
    obtain ⟨h1, x, h2, h3, h4, h5⟩ := hp (hw.2.2.2.1 (by cases e; rfl))
    exact ⟨h1, .ref x, h2, h3, h5, h4⟩
  · intro pos s c r ps h
    obtain ⟨p, rfl, hp⟩ := group_places _ _ _ _ _ h
    obtain ⟨kids, e, -⟩ := rule_okA h rfl
    refine ⟨p, rfl, fun hw => ?_⟩
    obtain ⟨h1, x, h2, h3, h4, h5, h6⟩ := hp (hw.2.2.2.2 (by cases e; rfl))
    exact ⟨h1, .group x, h2, h3, h5, h4, h6⟩
  · intro pos s c r ps h
    obtain ⟨p, rfl, hp⟩ := place_of note_lay rfl breaks_note note_toks_ne _ _ _ _ _ h
    refine ⟨p, rfl, fun hw => ?_⟩
    obtain ⟨h1, x, h2, h3, h4, h5⟩ := hp trivial
    exact ⟨h1, .note x, h2, h3, h5, h4⟩

/-- A declaration of an accepted text, with the tokens before it and after it. -/
theorem doc_seat {txt : Str} {sb : SchemaBlock} (h : parseDbmlUnchecked txt = .ok sb) {bs1 b bs2}
    (hs : sb.blocks = bs1 ++ b :: bs2) :
    ∃ (xs1 : Doc) (x : Block) (xs2 : Doc) (q : Nat) (c r1 : Str) (p : Pair),
      Doc.Ok (xs1 ++ x :: xs2) ∧ Doc.ast xs1 = bs1.map (·.mapSpan noPos) ∧ x.ast = b.mapSpan noPos ∧
      Doc.ast xs2 = bs2.map (·.mapSpan noPos) ∧ Rem 0 txt q (c ++ r1) ∧ TopSeat ⟨q, c⟩ r1 p x ∧ walkTop p = .ok b ∧
      Lay (Doc.toks xs1) txt (c ++ r1) ∧ Lay x.toks (c ++ r1) r1 ∧ Wr (Doc.toks xs2) r1 := by
  have hread := h
  unfold parseDbmlUnchecked pestParse at h
  split at h <;> try contradiction
  rename_i c r pairs hp
  obtain ⟨kids, sp, rfl, hb⟩ := rule_ok hp rfl
  have hx : parseSchema (.mk .schema sp c kids) txt = .ok sb := h
  obtain ⟨c1, r1, p1, t, r2, c2, p2, h1, e, hg, h2, -, rfl⟩ := seq_ok hb
  have e1 : r1 = txt ∧ c1 = [] ∧ p1 = [] := by
    simp [run] at h1
    simp [h1]
  obtain ⟨rfl, rfl, rfl⟩ := e1
  obtain ⟨c3, r3, p3, pos'', r4, c4, p4, h3, hg', h4, rfl⟩ := seq_ok' h2
  have e4 : r4 = [] ∧ ∀ p ∈ p4, p.rule = .EOI := by
    cases r4 with
    | nil => simp [run] at h4; obtain ⟨-, -, rfl⟩ := h4; simp
    | cons x xs => simp [run] at h4
  obtain ⟨rfl, hp4⟩ := e4
  have hacc : ∀ p ∈ p3, BlockAcc p := by
    intro q hq
    obtain ⟨a, a', ha⟩ := foldlM_steps hx q (by simp [hq])
    refine ⟨?_, ?_, ?_, ?_, ?_⟩ <;> intro hqr <;> simp only [hqr] at ha <;>
      (obtain ⟨y, hy, -⟩ := Rs.bind_eq_ok.1 ha; exact ⟨y, hy⟩)
  obtain ⟨ys, rfl, hse⟩ := seats_of (star_spread top_seats h3 hacc)
  rw [parseSchema, Pair.children_mk, List.nil_append, List.foldlM_append] at hx
  obtain ⟨s1, hx1, hx2⟩ := Rs.bind_eq_ok.1 hx
  have hbl : sb.blocks = s1.blocks := by
    refine foldlM_keep (sel := SchemaBlock.blocks) ?_ hx2
    intro p hp s s' hs
    simp only [hp4 p hp] at hs
    cases hs; rfl
  rw [hbl] at hs
  obtain ⟨y1, p, x, y2, rfl, e1, hm, hpb⟩ := seats_pick (isM := fun p => !decide (p.rule = .EOI)) (sel := SchemaBlock.blocks)
    (get := fun p b => walkTop p = .ok b) (by
      intro s p s' hs
      unfold walkTop
      split at hs
      all_goals first
        | (rename_i hr
           obtain ⟨y, hy, hs⟩ := Rs.bind_eq_ok.1 hs
           cases hs
           exact .inr ⟨by simp [hr], _, by simp only [hr, hy, Rs.ok_bind], rfl⟩)
        | (rename_i hr; cases hs; exact .inl ⟨by simp [hr], rfl⟩)
        | simp [throwRules] at hs) hx1 rfl hs
  have hn : ∀ y ∈ y1, y.1.rule ≠ .EOI := fun y hy => by
    obtain ⟨q, r', h⟩ := hse.all y (by simp [hy])
    exact h.not_eoi
  rw [List.filter_eq_self.2 (by intro y hy; simpa using hn y hy)] at e1
  obtain ⟨q, cc, r5, hrem, hq, l1, l2, l3⟩ := hse.split rfl
  have hne : cc ++ r5 ≠ [] := by
    have := lay_ne (breaks_block x) (block_toks_ne x) l2
    simp [this]
  have hr2 : r2 ≠ [] := by
    obtain ⟨a, rfl, -⟩ := hrem
    simp only [ne_eq, List.append_eq_nil_iff, not_and] at *
    intro _ h
    exact hne h
  have hbl' : Blank t := hg.blank hr2
  subst e
  have hok : Doc.Ok (y1.map (·.2) ++ x :: y2.map (·.2)) := by
    intro b hb
    have : ∃ y ∈ y1 ++ (p, x) :: y2, y.2 = b := by
      simp only [List.mem_append, List.mem_map, List.mem_cons] at hb ⊢
      rcases hb with ⟨y, hy, rfl⟩ | rfl | ⟨y, hy, rfl⟩
      · exact ⟨y, .inl hy, rfl⟩
      · exact ⟨_, .inr (.inl rfl), rfl⟩
      · exact ⟨y, .inr (.inr hy), rfl⟩
    obtain ⟨y, hy, rfl⟩ := this
    obtain ⟨q, r', -, h, -⟩ := hse.all y hy
    exact h
  have hnil : Wr [] ([] : Str) := ⟨.inl .nil, by simp⟩
  have hw2 : Wr (Doc.toks (y2.map (·.2))) r5 := by
    have := l3 _ (hg'.wr hnil)
    simpa [seatToks, Doc.toks] using this
  have hwr : Written (Doc.toks (y1.map (·.2) ++ x :: y2.map (·.2))) (t ++ r2) := by
    have := (Lay.blank hbl' (l1.trans (l2.trans l3)) _ (hg'.wr hnil)).1
    simpa [seatToks, Doc.toks] using this
  obtain ⟨s', p', ha, -⟩ := C44_written_is_read _ hok _ hwr
  rw [hread] at p'
  cases p'
  rw [hbl, hs] at ha
  have ha' : bs1.map (·.mapSpan noPos) ++ b.mapSpan noPos :: bs2.map (·.mapSpan noPos) =
      Doc.ast (y1.map (·.2)) ++ x.ast :: Doc.ast (y2.map (·.2)) := by simpa [Doc.ast] using ha
  obtain ⟨f1, f2⟩ := List.append_inj ha' (by simp [Doc.ast, e1])
  obtain ⟨f2, f3⟩ := List.cons.inj f2
  refine ⟨y1.map (·.2), x, y2.map (·.2), q, cc, r5, p, hok, f1.symm, f2.symm, f3.symm, ?_, hq, hpb, ?_, l2, hw2⟩
  · refine Rem.trans ⟨t, rfl, ?_⟩ hrem
    simp [blen]
  · simpa [seatToks, Doc.toks] using Lay.blank hbl' l1

/-! ## Slots of a text -/

/-- In the text, the tokens `A` stand before the span, `M` at the span and `B` after it. -/
def Slot (txt : Str) (sp : Span) (A M B : List Tok) : Prop :=
  ∃ a x r, txt = a ++ (x ++ r) ∧ sp = ⟨blen a, blen a + blen x⟩ ∧ Lay A txt (x ++ r) ∧ Lay M (x ++ r) r ∧ Wr B r

theorem Hole.slot {txt : Str} {pos s r sp A M B A0 B0} (h : Hole pos s r sp A M B) (ha : Rem 0 txt pos s)
    (h0 : Lay A0 txt s) (h1 : Wr B0 r) : Slot txt sp (A0 ++ A) M (B ++ B0) := by
  obtain ⟨a, x, r1, e, e', l1, l2, l3⟩ := h.pre ha h0
  exact ⟨a, x, r1, e, by simpa using e', l1, l2, l3 _ h1⟩

theorem Slot.parts {txt : Str} {sp A M B} (h : Slot txt sp A M B) :
    ∃ a x r, txt = a ++ (x ++ r) ∧ before txt sp = a ∧ slice txt sp = x ∧ after txt sp = r ∧
      Lay A txt (x ++ r) ∧ Lay M (x ++ r) r ∧ Wr B r := by
  obtain ⟨a, x, r, rfl, rfl, h1, h2, h3⟩ := h
  refine ⟨a, x, r, rfl, takeBytes_append _ _, IsSlice.eq ⟨a, r, rfl, rfl, rfl⟩, ?_, h1, h2, h3⟩
  show dropBytes _ (blen a + blen x) = r
  rw [← List.append_assoc, ← blen_append]
  exact dropBytes_append _ _

theorem Slot.text {txt : Str} {sp A M B} (h : Slot txt sp A M B) (hb : AllBreak M) : Written M (slice txt sp) := by
  obtain ⟨a, x, r, -, -, e, -, -, h, -⟩ := h.parts
  rw [e]
  exact (h.cut hb).1

theorem Slot.without {txt : Str} {sp A M B} (h : Slot txt sp A M B) (hb : AllBreak A) :
    Written (A ++ B) (without txt sp) := by
  obtain ⟨a, x, r, e, e1, -, e3, h1, -, h3⟩ := h.parts
  unfold Props.without
  rw [e1, e3]
  rw [e] at h1
  exact lay_over hb h1 h3.1 fun hi => .inr (hi.trans ⟨x, [], by simp⟩)

theorem Slot.splice {txt u : Str} {sp A M B} {U : List Tok} (h : Slot txt sp A M B) (hb : AllBreak A)
    (hbu : AllBreak U) (hu : Written U u) (h1 : ¬ k!"/*" <:+: before txt sp ∨ ¬ k!"*/" <:+: u)
    (h2 : ¬ k!"/*" <:+: u ∨ ¬ k!"*/" <:+: after txt sp) : Written (A ++ (U ++ B)) (splice txt sp u) := by
  obtain ⟨a, x, r, e, e1, -, e3, l1, -, l3⟩ := h.parts
  unfold Props.splice
  rw [e1, e3]
  rw [e1] at h1
  rw [e3] at h2
  rw [e] at l1
  refine lay_over hb l1 (written_join hbu hu l3.1 h2) fun hi => ?_
  rcases infix_break hi with hi | hi
  · exact .inl (h1.resolve_right fun h => h hi)
  · exact .inr (hi.trans ⟨x, [], by simp⟩)

theorem Slot.start {txt : Str} {sp A M B} (h : Slot txt sp A M B) : Slot txt ⟨sp.start, sp.start⟩ A [] (M ++ B) := by
  obtain ⟨a, x, r, e, e', h1, h2, h3⟩ := h
  subst e'
  exact ⟨a, [], x ++ r, e, by simp [blen], h1, .nil, h2 _ h3⟩

theorem Slot.stop {txt : Str} {sp A M B} (h : Slot txt sp A M B) : Slot txt ⟨sp.stop, sp.stop⟩ (A ++ M) [] B := by
  obtain ⟨a, x, r, e, e', h1, h2, h3⟩ := h
  subst e'
  exact ⟨a ++ x, [], r, by simp [e], by simp [blen, blen_append], h1.trans h2, .nil, h3⟩

/-! ## Editable members -/

/-- The member `m` stands at the span, and any members can stand there instead. -/
def Editable {α β : Type} (ok : α → Prop) (toks : α → List Tok) (ast : α → β) (txt : Str) (sp : Span) (m : β)
    (put : List β → List TopLevelBlock) : Prop :=
  ∃ A B x, ok x ∧ ast x = m ∧ Slot txt sp A (toks x) B ∧ AllBreak A ∧ (∀ y, AllBreak (toks y)) ∧
    ∀ xs : List α, (∀ x ∈ xs, ok x) → ∃ d : Doc, d.Ok ∧ d.toks = A ++ (xs.flatMap toks ++ B) ∧ d.ast = put (xs.map ast)

section
variable {α β : Type} {ok : α → Prop} {toks : α → List Tok} {ast : α → β} {txt u : Str} {sp : Span} {m : β}
  {put : List β → List TopLevelBlock}

theorem Editable.text (h : Editable ok toks ast txt sp m put) :
    ∃ x, ok x ∧ Written (toks x) (slice txt sp) ∧ ast x = m := by
  obtain ⟨A, B, x, hx, e, hs, -, hb, -⟩ := h
  exact ⟨x, hx, hs.text (hb x), e⟩

theorem Editable.delete (h : Editable ok toks ast txt sp m put) :
    ∃ s', parseDbmlUnchecked (without txt sp) = .ok s' ∧ s'.blocks.map (·.mapSpan noPos) = put [] := by
  obtain ⟨A, B, x, -, -, hs, ha, hb, hp⟩ := h
  obtain ⟨d, hd, ht, e⟩ := hp [] (by simp)
  obtain ⟨s', p, a, -⟩ := C44_written_is_read d hd _ (by rw [ht]; exact hs.without ha)
  exact ⟨s', p, a.trans e⟩

theorem Editable.splice {xs : List α} (h : Editable ok toks ast txt sp m put) (hx : ∀ x ∈ xs, ok x)
    (hu : Written (xs.flatMap toks) u) (h1 : ¬ k!"/*" <:+: before txt sp ∨ ¬ k!"*/" <:+: u)
    (h2 : ¬ k!"/*" <:+: u ∨ ¬ k!"*/" <:+: after txt sp) :
    ∃ s', parseDbmlUnchecked (splice txt sp u) = .ok s' ∧ s'.blocks.map (·.mapSpan noPos) = put (xs.map ast) := by
  obtain ⟨A, B, x, -, -, hs, ha, hb, hp⟩ := h
  obtain ⟨d, hd, ht, e⟩ := hp xs hx
  obtain ⟨s', p, a, -⟩ := C44_written_is_read d hd _ (by
    rw [ht]; exact hs.splice ha (.flatMap hb) hu h1 h2)
  exact ⟨s', p, a.trans e⟩

theorem Editable.insertBefore {xs : List α} (h : Editable ok toks ast txt sp m put) (hx : ∀ x ∈ xs, ok x)
    (hu : Written (xs.flatMap toks) u) (h1 : ¬ k!"/*" <:+: before txt ⟨sp.start, sp.start⟩ ∨ ¬ k!"*/" <:+: u)
    (h2 : ¬ k!"/*" <:+: u ∨ ¬ k!"*/" <:+: after txt ⟨sp.start, sp.start⟩) :
    ∃ s', parseDbmlUnchecked (Props.splice txt ⟨sp.start, sp.start⟩ u) = .ok s' ∧
      s'.blocks.map (·.mapSpan noPos) = put (xs.map ast ++ [m]) := by
  obtain ⟨A, B, x, hok, rfl, hs, ha, hb, hp⟩ := h
  obtain ⟨d, hd, ht, e⟩ := hp (xs ++ [x]) (by
    intro y hy
    rcases List.mem_append.1 hy with hy | hy
    · exact hx y hy
    · cases List.mem_singleton.1 hy; exact hok)
  obtain ⟨s', p, a, -⟩ := C44_written_is_read d hd _ (by
    rw [ht]
    have := hs.start.splice ha (.flatMap hb) hu h1 h2
    simpa using this)
  exact ⟨s', p, a.trans (by simpa using e)⟩

theorem Editable.insertAfter {xs : List α} (h : Editable ok toks ast txt sp m put) (hx : ∀ x ∈ xs, ok x)
    (hu : Written (xs.flatMap toks) u) (h1 : ¬ k!"/*" <:+: before txt ⟨sp.stop, sp.stop⟩ ∨ ¬ k!"*/" <:+: u)
    (h2 : ¬ k!"/*" <:+: u ∨ ¬ k!"*/" <:+: after txt ⟨sp.stop, sp.stop⟩) :
    ∃ s', parseDbmlUnchecked (Props.splice txt ⟨sp.stop, sp.stop⟩ u) = .ok s' ∧
      s'.blocks.map (·.mapSpan noPos) = put (m :: xs.map ast) := by
  obtain ⟨A, B, x, hok, rfl, hs, ha, hb, hp⟩ := h
  obtain ⟨d, hd, ht, e⟩ := hp (x :: xs) (by
    intro y hy
    rcases List.mem_cons.1 hy with rfl | hy
    · exact hok
    · exact hx y hy)
  obtain ⟨s', p, a, -⟩ := C44_written_is_read d hd _ (by
    rw [ht]
    have := hs.stop.splice (ha.append (hb x)) (.flatMap hb) hu h1 h2
    simpa using this)
  exact ⟨s', p, a.trans (by simpa using e)⟩

end

end Dbml

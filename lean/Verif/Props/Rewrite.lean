import Verif.Props.Language
import Verif.Proofs.Rewrite
import Verif.Proofs.OkDec

/-!
# C70, C71: many ways to write the same schema
-/

namespace Dbml.Props

open Dbml Spec Source Syntax

/-! ## Schemas -/

/-- **C70.** Schemas that declare the same are both valid or both invalid. -/
theorem C70_alike_valid {s u : SchemaBlock} (h : Alike s u) : Valid s ↔ Valid u := valid_alike h

/-- **C70.** Texts that declare the same are both accepted by `parse_dbml` or both rejected. -/
theorem C70_alike_accepted {t t' : Str} {s u : SchemaBlock} (h : parseDbmlUnchecked t = .ok s)
    (h' : parseDbmlUnchecked t' = .ok u) (ha : Alike s u) : parseDbml t = .ok s ↔ parseDbml t' = .ok u := by
  rw [C33_accepts_iff_valid, C33_accepts_iff_valid]
  simp only [h, h', true_and]
  exact valid_alike ha

/-- Being alike is symmetric, and every schema is like itself. -/
theorem C70_symm {s u : SchemaBlock} (h : Alike s u) : Alike u s := h.symm
theorem C70_refl (s : SchemaBlock) : Alike s s := .rfl

/-- **C70.** A ref block can be written from its other end: `a > b` is `b < a`, and `-` and `<>` are symmetric. -/
theorem C70_turn (B1 B2 : List TopLevelBlock) (r : RefBlock) :
    Valid { blocks := B1 ++ .ref r :: B2 } ↔
      Valid { blocks := B1 ++ .ref { r with rel := turned r.rel, lhs := r.rhs, rhs := r.lhs } :: B2 } :=
  valid_alike (alike_ref (.inr ⟨rfl, .rfl, .rfl, .inl ⟨rfl, rfl⟩⟩) (.refl _))

/-! ## Documents -/

theorem setsPerm_all {α : Type} {p : α → Prop} {is js : Option (List α)} (h : SetsPerm is js)
    (hp : ∀ l, is = some l → ∀ a ∈ l, p a) : ∀ l, js = some l → ∀ a ∈ l, p a := by
  cases h with
  | perm h =>
    rintro l e a ha
    cases e
    exact hp _ rfl a (h.mem_iff.2 ha)
  | drop => rintro l e; cases e
  | add =>
    rintro l e a ha
    cases e
    simp at ha

theorem rewriteDef_ok {d d' : IDef} (h : RewriteDef d d') (hd : d.Ok) : d'.Ok := by
  cases h with
  | single h =>
    refine ⟨hd.1, ?_⟩
    rintro as e
    cases e
    obtain ⟨h1, h2⟩ := hd.2 _ rfl
    exact ⟨fun a ha => h1 a (h.mem_iff.2 ha), fun a ha => h2 a (h.mem_iff.2 ha)⟩
  | multi h =>
    refine ⟨hd.1, ?_⟩
    rintro as e
    cases e
    obtain ⟨h1, h2⟩ := hd.2 _ rfl
    exact ⟨fun a ha => h1 a (h.mem_iff.2 ha), fun a ha => h2 a (h.mem_iff.2 ha)⟩
  | paren => exact hd
  | unparen => exact hd

theorem rewriteRef_ok {r r' : Ref} (h : RewriteRef r r') (hr : r.Ok) : r'.Ok := by
  obtain ⟨h1, h2, h3, h4, h5, h6⟩ := hr
  cases h with
  | form h => exact ⟨h1, h, h3, h4, h5, h6⟩
  | turn =>
    refine ⟨h1, h2, h5, ?_, h3, h6⟩
    rename_i rel _ _
    cases rel <;> simp_all [otherWay]
  | pairs ps qs hp e1 e2 e3 e4 =>
    refine ⟨h1, h2, ⟨h3.1, h3.2.1, fun n hn => h3.2.2 n ?_⟩, h4, ⟨h5.1, h5.2.1, fun n hn => h5.2.2 n ?_⟩, h6⟩
    · simp only [e3] at hn
      simp only [e1]
      exact (hp.map _).mem_iff.2 hn
    · simp only [e4] at hn
      simp only [e2]
      exact (hp.map _).mem_iff.2 hn
  | settings h =>
    refine ⟨h1, h2, h3, h4, h5, ?_⟩
    intro as e
    cases h with
    | perm h =>
      cases e
      obtain ⟨g1, g2⟩ := h6 _ rfl
      exact ⟨fun a ha => g1 a (h.mem_iff.2 ha), fun a ha => g2 a (h.mem_iff.2 ha)⟩
    | drop => cases e
    | add => cases e; exact ⟨by simp, by simp⟩

theorem rewriteItem_ok {i j : TItem} (h : RewriteItem i j) (hi : i.Ok) : j.Ok := by
  cases h with
  | col h =>
    obtain ⟨h1, h2, h3⟩ := hi
    exact ⟨h1, h2, setsPerm_all h h3⟩
  | index h =>
    obtain ⟨h1, h2⟩ := hi
    refine ⟨h1, fun x hx => ?_⟩
    simp only [List.mem_append, List.mem_cons] at hx h2
    rcases hx with hx | rfl | hx
    · exact h2 x (.inl hx)
    · exact rewriteDef_ok h (h2 _ (.inr (.inl rfl)))
    · exact h2 x (.inr (.inr hx))

theorem rewriteBlock_ok {b b' : Block} (h : RewriteBlock b b') (hb : b.Ok) : b'.Ok := by
  cases h with
  | project h =>
    obtain ⟨h1, h2, h3⟩ := hb
    exact ⟨h1, h2, fun i hi => h3 i (h.mem_iff.2 hi)⟩
  | tableSettings h =>
    obtain ⟨h1, h2, h3, h4, h5, h6⟩ := hb
    exact ⟨h1, h2, h3, h4, setsPerm_all h h5, h6⟩
  | tableItems h _ =>
    obtain ⟨h1, h2, h3, h4, h5, h6⟩ := hb
    exact ⟨h1, h2, h3, h4, h5, fun i hi => h6 i (h.mem_iff.2 hi)⟩
  | tableItem h =>
    obtain ⟨h1, h2, h3, h4, h5, h6⟩ := hb
    refine ⟨h1, h2, h3, h4, h5, fun x hx => ?_⟩
    simp only [List.mem_append, List.mem_cons] at hx h6
    rcases hx with hx | rfl | hx
    · exact h6 x (.inl hx)
    · exact rewriteItem_ok h (h6 _ (.inr (.inl rfl)))
    · exact h6 x (.inr (.inr hx))
  | enumValues h =>
    obtain ⟨h1, h2, h3, h4⟩ := hb
    exact ⟨h1, h2, h3, fun i hi => h4 i (h.mem_iff.2 hi)⟩
  | enumSettings h =>
    obtain ⟨h1, h2, h3, h4⟩ := hb
    refine ⟨h1, h2, h3, fun x hx => ?_⟩
    simp only [List.mem_append, List.mem_cons] at hx h4
    rcases hx with hx | rfl | hx
    · exact h4 x (.inl hx)
    · obtain ⟨g1, g2⟩ := h4 _ (.inr (.inl rfl))
      exact ⟨g1, setsPerm_all h g2⟩
    · exact h4 x (.inr (.inr hx))
  | groupItems h =>
    obtain ⟨h1, h2, h3, h4⟩ := hb
    exact ⟨h1, h2, h3, fun i hi => h4 i (h.mem_iff.2 hi)⟩
  | groupSettings h =>
    obtain ⟨h1, h2, h3, h4⟩ := hb
    exact ⟨h1, h2, h, h4⟩
  | ref h => exact rewriteRef_ok h hb

/-- **C71.** Rewriting keeps a document well-formed. -/
theorem C71_ok {d d' : Doc} (h : Rewrite d d') (hd : d.Ok) : d'.Ok := by
  cases h with
  | order h => exact fun b hb => hd b (h.mem_iff.2 hb)
  | block h =>
    intro x hx
    simp only [List.mem_append, List.mem_cons] at hx
    rcases hx with hx | rfl | hx
    · exact hd x (by simp [hx])
    · exact rewriteBlock_ok h (hd _ (by simp))
    · exact hd x (by simp [hx])
  | note h =>
    intro x hx
    simp only [List.mem_append, List.mem_cons] at hx
    rcases hx with hx | rfl | hx
    · exact hd x (by simp [hx])
    · exact h
    · exact hd x (by simp [hx])
  | @inline d1 d2 kw s n a as i1 i2 c ty l1 l2 r kw' h =>
    obtain ⟨h1, h2, h3, h4, h5, h6⟩ := hd (.table ⟨kw, s, n, a, as, i1 ++ .col ⟨c, ty, some (l1 ++ .ref r :: l2)⟩ :: i2⟩) (by simp)
    obtain ⟨g1, g2, g3⟩ := h6 (.col ⟨c, ty, some (l1 ++ .ref r :: l2)⟩) (by simp)
    have hr : r.Ok := g3 _ rfl (.ref r) (by simp)
    intro x hx
    simp only [List.mem_append, List.mem_cons] at hx
    rcases hx with hx | rfl | rfl | hx
    · exact hd x (by simp [hx])
    · refine ⟨h1, h2, h3, h4, h5, fun i hi => ?_⟩
      simp only [List.mem_append, List.mem_cons] at hi
      rcases hi with hi | rfl | hi
      · exact h6 i (by simp [hi])
      · refine ⟨g1, g2, ?_⟩
        intro is e
        cases e
        intro y hy
        refine g3 _ rfl y ?_
        simp only [List.mem_append, List.mem_cons] at hy ⊢
        exact hy.imp id .inr
      · exact h6 i (by simp [hi])
    · refine ⟨h, by simp, ⟨h2, h3, ?_⟩, hr.1, hr.2, by simp⟩
      intro m hm
      simp only [Comp.names, List.mem_singleton] at hm
      rw [hm]; exact g1
    · exact hd x (by simp [hx])
  | «alias» h =>
    obtain ⟨t, sc, h1, h2, h3, rfl, h5⟩ := h
    intro x hx
    simp only [List.mem_append, List.mem_cons] at hx
    rcases hx with hx | rfl | hx
    · exact hd x (by simp [hx])
    · obtain ⟨g1, g2, g3, g4, g5, g6⟩ := hd (.ref _) (List.mem_append_right _ (List.mem_cons_self ..))
      obtain ⟨k1, k2, k3, -⟩ := hd _ h1
      exact ⟨g1, g2, ⟨fun y hy => k2 y (h3.trans hy), k3, g3.2.2⟩, g4, g5, g6⟩
    · exact hd x (by simp [hx])

/-- **C71.** Documents that can be rewritten into each other are valid together. -/
theorem C71_valid {d d' : Doc} (h : SameMeaning d d') : Valid { blocks := d.ast } ↔ Valid { blocks := d'.ast } :=
  sameMeaning_valid h

theorem _root_.Relation.ReflTransGen.sameMeaning {d d' : Doc} (h : Relation.ReflTransGen Rewrite d d') : SameMeaning d d' := by
  induction h with
  | refl => exact .refl _
  | tail _ h ih => exact .trans _ _ _ ih (.rel _ _ h)

/-- **C71.** Texts of documents that can be rewritten into each other, in any layout, are both accepted by `parse_dbml` or
both rejected. -/
theorem C71_same_meaning {d d' : Doc} (h : SameMeaning d d') (hd : d.Ok) (hd' : d'.Ok) {t t' : Str} (hw : Written d.toks t)
    (hw' : Written d'.toks t') : (∃ s, parseDbml t = .ok s) ↔ ∃ s, parseDbml t' = .ok s := by
  rw [checked_iff d hd t hw, checked_iff d' hd' t' hw', C71_valid h]

/-- **C71.** Every text that `parse_dbml` accepts is the text of a document, and stays accepted however the document is
rewritten and laid out. -/
theorem C71_rewrite (t : Str) (h : ∃ s, parseDbml t = .ok s) :
    ∃ d : Doc, d.Ok ∧ Written d.toks t ∧
      ∀ d', Relation.ReflTransGen Rewrite d d' → ∀ t', Written d'.toks t' → ∃ s, parseDbml t' = .ok s := by
  obtain ⟨d, hd, hw, -⟩ := (C57_checked_language t).1 h
  refine ⟨d, hd, hw, fun d' hr t' hw' => ?_⟩
  have key : d'.Ok ∧ SameMeaning d d' := by
    clear hw'
    induction hr with
    | refl => exact ⟨hd, .refl _⟩
    | tail _ h ih => exact ⟨C71_ok h ih.1, .trans _ _ _ ih.2 (.rel _ _ h)⟩
  exact (C71_same_meaning key.2 hd key.1 hw hw').1 h

/-- **C71.** And a text that is read but rejected stays rejected. -/
theorem C71_rejected (t : Str) (h : ∃ s, parseDbmlUnchecked t = .ok s) (hr : ¬ ∃ s, parseDbml t = .ok s) :
    ∃ d : Doc, d.Ok ∧ Written d.toks t ∧
      ∀ d', Relation.ReflTransGen Rewrite d d' → ∀ t', Written d'.toks t' →
        (∃ s, parseDbmlUnchecked t' = .ok s) ∧ ¬ ∃ s, parseDbml t' = .ok s := by
  obtain ⟨d, hd, hw⟩ := (C57_language t).1 h
  refine ⟨d, hd, hw, fun d' hr' t' hw' => ?_⟩
  have key : d'.Ok ∧ SameMeaning d d' := by
    clear hw'
    induction hr' with
    | refl => exact ⟨hd, .refl _⟩
    | tail _ h ih => exact ⟨C71_ok h ih.1, .trans _ _ _ ih.2 (.rel _ _ h)⟩
  exact ⟨(C57_language t').2 ⟨d', key.1, hw'⟩, fun ha => hr ((C71_same_meaning key.2 hd key.1 hw hw').2 ha)⟩

/-! ## A concrete case -/

/-- A table with an alias, which has a composite key. -/
def rwUsers : Table :=
  { kw := k!"Table ", schema := some (.word k!"core"), name := .word k!"users", «alias» := some ⟨k!"as ", .word k!"U"⟩, settings := none
    items := [.col ⟨.word k!"id", ⟨none, .plain k!"int" none []⟩, some [.attr ⟨k!"pk", none⟩]⟩,
      .col ⟨.word k!"name", ⟨none, .plain k!"int" none []⟩, none⟩,
      .indexes ⟨k!"indexes", [.multi [.name (.word k!"id"), .name (.word k!"name")]
        (some [⟨k!"unique", none⟩, ⟨k!"name", some (.lit (.str (.single (.of k!"both"))))⟩])]⟩] }

/-- A table with an inline reference or without. -/
def rwOrders (sets : List ColSet) : Table :=
  { kw := k!"Table ", schema := none, name := .word k!"orders", «alias» := none, settings := none
    items := [] ++ .col ⟨.word k!"user", ⟨none, .plain k!"int" none []⟩, some sets⟩ ::
      [.col ⟨.word k!"a", ⟨none, .plain k!"int" none []⟩, none⟩, .col ⟨.word k!"b", ⟨none, .plain k!"int" none []⟩, none⟩] }

def rwInline : InlineRef := ⟨.many2one, ⟨none, .word k!"U", .one (.word k!"id")⟩⟩
def rwNotNull : ColSet := .attr ⟨k!"not null", none⟩
def rwProject : Block := .project ⟨k!"Project ", .word k!"p", []⟩
def rwPair (x y : Str) : Comp := .many (.word x) [.word y]
def rwRef (lhs : REnd) (rel : Relation) (rhs : REnd) : Block := .ref ⟨k!"Ref", none, false, lhs, rel, rhs, none⟩
def rwEnd (sc : Option Name) (t : Str) (c : Comp) : REnd := ⟨sc, .word t, c⟩

/-- `user int [not null, ref: > U.id]` and `Ref: orders.(a, b) > core.users.(id, name)` -/
def rwBefore : Doc :=
  [rwProject, .table rwUsers] ++ .table (rwOrders ([rwNotNull] ++ .ref rwInline :: [])) ::
    [rwRef (rwEnd none k!"orders" (rwPair k!"a" k!"b")) .many2one (rwEnd (some (.word k!"core")) k!"users" (rwPair k!"id" k!"name"))]

/-- `user int [not null]`, `Ref: core.users.id < orders.user` and `Ref: orders.(b, a) > core.users.(name, id)` -/
def rwAfter : Doc :=
  [rwProject, .table rwUsers, .table (rwOrders ([rwNotNull] ++ []))] ++
    rwRef (rwEnd (some (.word k!"core")) k!"users" (.one (.word k!"id"))) .one2many (rwEnd none k!"orders" (.one (.word k!"user"))) ::
    [rwRef (rwEnd none k!"orders" (rwPair k!"b" k!"a")) .many2one (rwEnd (some (.word k!"core")) k!"users" (rwPair k!"name" k!"id"))]

/-- The declarations between them. -/
def rwWith (b1 b2 : Block) : Doc := [rwProject, .table rwUsers, .table (rwOrders ([rwNotNull] ++ []))] ++ b1 :: [b2]

theorem rw_steps : Relation.ReflTransGen Rewrite rwBefore rwAfter := by
  have s1 : Rewrite rwBefore (rwWith (rwRef (rwEnd none k!"orders" (.one (.word k!"user"))) .many2one (rwEnd none k!"U" (.one (.word k!"id"))))
      (rwRef (rwEnd none k!"orders" (rwPair k!"a" k!"b")) .many2one (rwEnd (some (.word k!"core")) k!"users" (rwPair k!"id" k!"name")))) :=
    Rewrite.inline (d1 := [rwProject, .table rwUsers]) (r := rwInline) (kw' := k!"Ref") (by decide)
  have s2 : ∀ b, Rewrite (rwWith (rwRef (rwEnd none k!"orders" (.one (.word k!"user"))) .many2one (rwEnd none k!"U" (.one (.word k!"id")))) b)
      (rwWith (rwRef (rwEnd none k!"U" (.one (.word k!"id"))) .one2many (rwEnd none k!"orders" (.one (.word k!"user")))) b) := fun b =>
    Rewrite.block (.ref (.turn (rel := .many2one)))
  have s3 : ∀ r, Rewrite (rwWith (rwRef (rwEnd none k!"U" (.one (.word k!"id"))) .one2many (rwEnd none k!"orders" (.one (.word k!"user")))) (.ref r))
      (rwWith (rwRef (rwEnd (some (.word k!"core")) k!"users" (.one (.word k!"id"))) .one2many (rwEnd none k!"orders" (.one (.word k!"user")))) (.ref r)) := by
    intro r
    refine Rewrite.alias ⟨rwUsers, .word k!"core", by simp, ⟨_, rfl, rfl⟩, rfl, rfl, ?_⟩
    intro u hu
    simp only [List.mem_append, List.mem_cons, List.not_mem_nil, or_false, rwProject, Block.table.injEq, reduceCtorEq,
      false_or] at hu
    rcases hu with rfl | rfl
    · rintro ⟨x, hx, hv⟩
      cases hx
      exact absurd hv (by decide)
    · rintro ⟨x, hx, hv⟩
      cases hx
  have s4 : ∀ b, Rewrite (rwWith b (rwRef (rwEnd none k!"orders" (rwPair k!"a" k!"b")) .many2one (rwEnd (some (.word k!"core")) k!"users" (rwPair k!"id" k!"name"))))
      (rwWith b (rwRef (rwEnd none k!"orders" (rwPair k!"b" k!"a")) .many2one (rwEnd (some (.word k!"core")) k!"users" (rwPair k!"name" k!"id")))) := fun b =>
    Rewrite.block (d1 := [rwProject, .table rwUsers, .table (rwOrders ([rwNotNull] ++ ([] : List ColSet))), b])
      (d2 := []) (.ref (.pairs (kw := k!"Ref") (l := rwPair k!"a" k!"b") (r := rwPair k!"id" k!"name") (l' := rwPair k!"b" k!"a")
        (r' := rwPair k!"name" k!"id") [(.word k!"a", .word k!"id"), (.word k!"b", .word k!"name")]
        [(.word k!"b", .word k!"name"), (.word k!"a", .word k!"id")] (.swap _ _ _) rfl rfl rfl rfl))
  exact .head s1 (.head (s2 _) (.head (s3 _) (.single (s4 _))))

theorem rw_before_ok : rwBefore.Ok ∧ Printable rwBefore := by
  constructor
  · decide +kernel
  · unfold Printable; decide +kernel

/-- Both documents are well-formed, and their texts are accepted. -/
theorem rw_accepted : (∃ s, parseDbml (render rwBefore) = .ok s) ∧ ∃ s, parseDbml (render rwAfter) = .ok s := by
  have h1 : ∃ s, parseDbml (render rwBefore) = .ok s := ⟨_, parsed_of (by decide +kernel)⟩
  refine ⟨h1, (C71_same_meaning ?_ rw_before_ok.1 (by decide +kernel) (render_written _ rw_before_ok.2)
    (render_written _ (by unfold Printable; decide +kernel))).1 h1⟩
  exact rw_steps.sameMeaning

/-- The order of index definitions does matter: a unique index may not consist of columns of an earlier one. -/
theorem C71_index_order : (∃ s, parseDbml k!"Project p { } Table t { a int b int indexes { a [unique] (a, b) [unique] } }" = .ok s) ∧
    ¬ ∃ s, parseDbml k!"Project p { } Table t { a int b int indexes { (a, b) [unique] a [unique] } }" = .ok s := by
  refine ⟨⟨_, parsed_of (by decide +kernel)⟩, ?_⟩
  rintro ⟨s, h⟩
  have : (parseDbml k!"Project p { } Table t { a int b int indexes { (a, b) [unique] a [unique] } }").get?.isSome = false := by
    decide +kernel
  rw [h] at this
  simp [Rs.get?] at this

/-- And so does the order of index blocks: only the last one counts. -/
theorem C71_index_blocks : (∃ s, parseDbml k!"Project p { } Table t { a int indexes { x } indexes { a } }" = .ok s) ∧
    ¬ ∃ s, parseDbml k!"Project p { } Table t { a int indexes { a } indexes { x } }" = .ok s := by
  refine ⟨⟨_, parsed_of (by decide +kernel)⟩, ?_⟩
  rintro ⟨s, h⟩
  have : (parseDbml k!"Project p { } Table t { a int indexes { a } indexes { x } }").get?.isSome = false := by
    decide +kernel
  rw [h] at this
  simp [Rs.get?] at this

end Dbml.Props

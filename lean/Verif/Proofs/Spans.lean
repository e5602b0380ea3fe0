import Verif.Proofs.Term
import Verif.Spec.Spans

/-!
# Spans of what a text denotes
-/

namespace Dbml
open Syntax Spec

/-- A well-placed tree. -/
inductive OkT (input : Str) : SNode → Prop
  | mk {span raw groups txt} : IsSlice input span txt → (∀ r, raw = some r → r = txt) →
      (∀ g ∈ groups, g.Pairwise fun a b => a.span.stop ≤ b.span.start) →
      (∀ g ∈ groups, ∀ k ∈ g, span.start ≤ k.span.start ∧ k.span.stop ≤ span.stop) →
      (∀ g ∈ groups, ∀ k ∈ g, OkT input k) → OkT input (.mk span raw groups)

/-- The tree sits exactly at the piece. -/
def NodeAt (R : Str) (p : Piece) (n : SNode) : Prop := Sub p ⟨0, R⟩ → n.span = p.span ∧ OkT R n

/-- `a` ends before `b` starts. -/
def Before (a b : Piece) : Prop := a.pos + blen a.txt ≤ b.pos

/-- The nodes sit in the piece, in order. -/
def InOrder (R : Str) (p : Piece) (ns : List SNode) : Prop :=
  ∃ ms : List Piece, (∀ m ∈ ms, Sub m p) ∧ ms.Pairwise Before ∧ Each (NodeAt R) ms ns

theorem sub_bounds {q p : Piece} (h : Sub q p) : p.pos ≤ q.pos ∧ q.pos + blen q.txt ≤ p.pos + blen p.txt := by
  obtain ⟨pre, post, h1, h2⟩ := h
  rw [h2, h1, blen_append, blen_append]
  omega

theorem Before.sub {a b a' b'} (h : Before a b) (ha : Sub a' a) (hb : Sub b' b) : Before a' b' := by
  have := sub_bounds ha
  have := sub_bounds hb
  unfold Before at *
  omega

theorem parts_before {g p ms} (h : Parts g p ms) : ms.Pairwise Before := by
  induction h with
  | one => simp
  | @cons pos c t c' ps hg hp ih =>
    refine List.pairwise_cons.2 ⟨fun m hm => ?_, ih⟩
    have := sub_bounds (parts_sub hp m hm)
    simp only [Before]
    simp only at this
    omega

theorem Syntax.Each.sublist {α : Type} {D : Piece → α → Prop} {xs ys : List α} (hs : xs.Sublist ys) :
    ∀ {ms : List Piece}, Each D ms ys → ∃ ms' : List Piece, ms'.Sublist ms ∧ Each D ms' xs := by
  induction hs with
  | slnil => intro ms h; exact ⟨ms, List.Sublist.refl _, h⟩
  | cons x hs ih =>
    intro ms h
    cases h with
    | cons h1 h2 =>
      obtain ⟨ms', h3, h4⟩ := ih h2
      exact ⟨ms', h3.cons _, h4⟩
  | cons_cons x hs ih =>
    intro ms h
    cases h with
    | cons h1 h2 =>
      obtain ⟨ms', h3, h4⟩ := ih h2
      exact ⟨_, h3.cons_cons _, .cons h1 h4⟩

theorem Syntax.Each.append {α : Type} {D : Piece → α → Prop} {xs ys : List α} {ms ms' : List Piece}
    (h : Each D ms xs) (h' : Each D ms' ys) : Each D (ms ++ ms') (xs ++ ys) := by
  induction h with
  | nil => exact h'
  | cons h1 _ ih => exact .cons h1 ih

theorem Syntax.Each.map {α β : Type} {D : Piece → α → Prop} {D' : Piece → β → Prop} {f : α → β} {xs : List α}
    {ms : List Piece} (h : Each D ms xs) (hf : ∀ m x, D m x → D' m (f x)) : Each D' ms (xs.map f) := by
  induction h with
  | nil => exact .nil
  | cons h1 _ ih => exact .cons (hf _ _ h1) ih

theorem InOrder.sublist {R p ns ns'} (hs : ns'.Sublist ns) (h : InOrder R p ns) : InOrder R p ns' := by
  obtain ⟨ms, h1, h2, h3⟩ := h
  obtain ⟨ms', h4, h5⟩ := h3.sublist hs
  exact ⟨ms', fun m hm => h1 m (h4.subset hm), h2.sublist h4, h5⟩

theorem InOrder.nil {R p} : InOrder R p [] := ⟨[], by simp, .nil, .nil⟩

theorem InOrder.one {R p n} (h : NodeAt R p n) : InOrder R p [n] :=
  ⟨[p], by simp [Syntax.Sub.refl], by simp, .cons h .nil⟩

/-- Nodes inside consecutive parts are in order. -/
theorem InOrder.parts {R g p ms nss} (hp : Parts g p ms) (h : Each (fun m ns => InOrder R m ns) ms nss) :
    InOrder R p nss.flatten := by
  have hb := parts_before hp
  have hs := parts_sub hp
  clear hp
  suffices ∃ ks : List Piece, (∀ k ∈ ks, ∃ m ∈ ms, Sub k m) ∧ ks.Pairwise Before ∧ Each (NodeAt R) ks nss.flatten by
    obtain ⟨ks, h1, h2, h3⟩ := this
    refine ⟨ks, fun k hk => ?_, h2, h3⟩
    obtain ⟨m, hm, hsub⟩ := h1 k hk
    exact hsub.trans (hs m hm)
  clear hs
  induction h with
  | nil => exact ⟨[], by simp, .nil, .nil⟩
  | @cons m ms ns nss h1 _ ih =>
    obtain ⟨hb1, hb2⟩ := List.pairwise_cons.1 hb
    obtain ⟨ks, k1, k2, k3⟩ := ih hb2
    obtain ⟨js, j1, j2, j3⟩ := h1
    refine ⟨js ++ ks, ?_, ?_, j3.append k3⟩
    · intro k hk
      rcases List.mem_append.1 hk with hk | hk
      · exact ⟨m, by simp, j1 k hk⟩
      · obtain ⟨m', hm', hsub⟩ := k1 k hk
        exact ⟨m', by simp [hm'], hsub⟩
    · refine List.pairwise_append.2 ⟨j2, k2, fun a ha b hb' => ?_⟩
      obtain ⟨m', hm', hsub⟩ := k1 b hb'
      exact (hb1 m' hm').sub (j1 a ha) hsub

theorem flatten_single {α β : Type} (f : α → β) (xs : List α) : (xs.map fun x => [f x]).flatten = xs.map f := by
  induction xs with
  | nil => rfl
  | cons x xs ih => simp [ih]

/-- Lists laid out in order. -/
theorem InOrder.many {R g p} {α : Type} {D : Piece → α → Prop} {f : α → SNode} {xs}
    (hD : ∀ m x, D m x → NodeAt R m (f x)) (h : ManyD g D p xs) : InOrder R p (xs.map f) := by
  obtain ⟨ms, hm, he⟩ := h
  rcases hm with ⟨-, rfl⟩ | hm
  · cases he; exact .nil
  · have : Each (fun m ns => InOrder R m ns) ms (xs.map fun x => [f x]) :=
      he.map fun m x hx => .one (hD m x hx)
    have := InOrder.parts hm this
    rwa [flatten_single] at this

theorem InOrder.comma {R g p} {α : Type} {D : Piece → α → Prop} {f : α → SNode} {xs}
    (hD : ∀ m x, D m x → NodeAt R m (f x)) (h : CommaD g D p xs) : InOrder R p (xs.map f) := by
  obtain ⟨first, more, x, xs', hp, hx, ⟨ms, hm, he⟩, rfl⟩ := h
  have h2 : InOrder R more (xs'.map f) := by
    rcases hm with ⟨-, rfl⟩ | hm
    · cases he; exact .nil
    · have : Each (fun m ns => InOrder R m ns) ms (xs'.map fun x => [f x]) :=
        he.map fun m x ⟨c, i, hp, _, hx⟩ =>
          InOrder.parts hp (nss := [[], [f x]]) (.cons .nil (.cons (.one (hD i x hx)) .nil))
      have := InOrder.parts hm this
      rwa [flatten_single] at this
  have := InOrder.parts hp (nss := [[f x], xs'.map f]) (.cons (.one (hD _ _ hx)) (.cons h2 .nil))
  simpa using this

theorem InOrder.list {R g op cl p} {α : Type} {D : Piece → α → Prop} {f : α → SNode} {xs}
    (hD : ∀ m x, D m x → NodeAt R m (f x)) (h : ListD g op cl D p xs) : InOrder R p (xs.map f) := by
  obtain ⟨l, mid, r, hp, -, -, h⟩ := h
  have h2 : InOrder R mid (xs.map f) := by
    rcases h with ⟨-, rfl⟩ | h
    · exact .nil
    · exact .comma hD h
  simpa using InOrder.parts hp (nss := [[], xs.map f, []]) (.cons .nil (.cons h2 (.cons .nil .nil)))

theorem InOrder.braced {R p} {α : Type} {D : Piece → α → Prop} {f : α → SNode} {xs}
    (hD : ∀ m x, D m x → NodeAt R m (f x)) (h : BracedD D p xs) : InOrder R p (xs.map f) := by
  obtain ⟨l, mid, r, hp, -, -, h⟩ := h
  simpa using InOrder.parts hp (nss := [[], xs.map f, []])
    (.cons .nil (.cons (.many hD h) (.cons .nil .nil)))

theorem InOrder.opt {R p} {α : Type} {D : Piece → α → Prop} {f : α → SNode} {o : Option α}
    (hD : ∀ m x, D m x → NodeAt R m (f x)) (h : OptD D p o) : InOrder R p (o.toList.map f) := by
  rcases h with ⟨-, rfl⟩ | ⟨a, ha, rfl⟩
  · exact .nil
  · exact .one (hD _ _ ha)

theorem InOrder.elem {R p ns} (hs : Sub p ⟨0, R⟩) (h : InOrder R p ns) :
    (ns.Pairwise fun a b => a.span.stop ≤ b.span.start) ∧
    (∀ k ∈ ns, p.span.start ≤ k.span.start ∧ k.span.stop ≤ p.span.stop) ∧ ∀ k ∈ ns, OkT R k := by
  obtain ⟨ms, h1, h2, h3⟩ := h
  have hk : ∀ k ∈ ns, ∃ m ∈ ms, k.span = m.span ∧ OkT R k := by
    clear h2
    induction h3 with
    | nil => simp
    | @cons m ms x xs hx _ ih =>
      intro k hk
      rcases List.mem_cons.1 hk with rfl | hk
      · exact ⟨m, by simp, hx ((h1 m (by simp)).trans hs)⟩
      · obtain ⟨m', h4, h5⟩ := ih (fun m hm => h1 m (by simp [hm])) k hk
        exact ⟨m', by simp [h4], h5⟩
  refine ⟨?_, ?_, fun k hk' => (hk k hk').choose_spec.2.2⟩
  · clear hk
    induction h3 with
    | nil => simp
    | @cons m ms x xs hx he ih =>
      obtain ⟨hb1, hb2⟩ := List.pairwise_cons.1 h2
      refine List.pairwise_cons.2 ⟨?_, ih (fun m hm => h1 m (by simp [hm])) hb2⟩
      intro y hy
      have hxs := (hx ((h1 m (by simp)).trans hs)).1
      have : ∃ m' ∈ ms, y.span = m'.span := by
        clear ih h2 hb1 hb2
        induction he with
        | nil => simp at hy
        | @cons m2 ms2 z zs hz _ ih2 =>
          rcases List.mem_cons.1 hy with rfl | hy
          · exact ⟨m2, by simp, (hz ((h1 m2 (by simp)).trans hs)).1⟩
          · obtain ⟨m', h4, h5⟩ := ih2 (fun m' hm => h1 m' (by
              rcases List.mem_cons.1 hm with rfl | hm <;> simp_all)) hy
            exact ⟨m', by simp [h4], h5⟩
      obtain ⟨m', hm', e⟩ := this
      have := hb1 m' hm'
      rw [hxs, e]
      exact this
  · intro k hk'
    obtain ⟨m, hm, e, -⟩ := hk k hk'
    have := sub_bounds (h1 m hm)
    rw [e]
    exact this

theorem NodeAt.mk {R p raw groups sp} (hsp : sp = p.span) (hr : ∀ r, raw = some r → r = p.txt)
    (hg : ∀ g ∈ groups, InOrder R p g) : NodeAt R p (.mk sp raw groups) := by
  intro hs
  subst hsp
  refine ⟨rfl, .mk (txt := p.txt) ?_ hr (fun g h => (InOrder.elem hs (hg g h)).1)
    (fun g h => (InOrder.elem hs (hg g h)).2.1) (fun g h => (InOrder.elem hs (hg g h)).2.2)⟩
  obtain ⟨pre, post, h1, h2⟩ := hs
  refine ⟨pre, post, h1, ?_, ?_⟩ <;> simp [Piece.span, h2]

/-! ## Each construct -/

variable {R : Str}

theorem ident_at {g p i} (h : IdentD g p i) : NodeAt R p (identTree i) :=
  .mk h.1 (by rintro _ ⟨⟩; exact h.2.1) (by simp)

theorem lit_at {D p l} (h : LitD D p l) : NodeAt R p (litTree l) :=
  .mk h.1 (by rintro _ ⟨⟩; exact h.2.1) (by simp)

theorem key_at {p i} (h : KeyD p i) : NodeAt R p (identTree i) :=
  .mk (by rw [h.2]) (by rintro _ ⟨⟩; rw [h.2]) (by simp)

theorem attr_at {p a} (h : AttributeD p a) : NodeAt R p (attrTree a) := by
  obtain ⟨key, tail, hp, hs, hk, ht⟩ := h
  refine .mk hs (by simp) ?_
  simp only [List.mem_singleton, forall_eq]
  refine InOrder.parts hp (nss := [[identTree a.key], a.value.toList.map litTree]) (.cons (.one (key_at hk)) (.cons ?_ .nil)) |> fun h => by simpa using h
  rcases ht with ⟨-, h⟩ | ⟨l, ⟨colon, v, hp2, -, hl⟩, h⟩
  · rw [h]; exact .nil
  · rw [h]
    exact InOrder.parts hp2 (nss := [[], [litTree l]]) (.cons .nil (.cons (.one (lit_at hl)) .nil))

theorem prop_at {p a} (h : PropertyD p a) : NodeAt R p (propTree a) := by
  obtain ⟨key, colon, v, hp, -, hs, hk, hv⟩ := h
  refine .mk hs (by simp) ?_
  simp only [List.mem_singleton, forall_eq]
  exact InOrder.parts hp (nss := [[identTree a.key], [], [litTree a.value]])
    (.cons (.one (key_at hk)) (.cons .nil (.cons (.one (lit_at hv)) .nil)))

theorem note_at {p n} (h : NoteD p n) : NodeAt R p (noteTree n) := by
  obtain ⟨hs, ⟨kw, colon, s, hp, -, -, hl⟩ | ⟨kw, l, s, r, hp, -, -, -, hl⟩⟩ := h
  · refine .mk hs (by simp) ?_
    simp only [List.mem_singleton, forall_eq]
    exact InOrder.parts hp (nss := [[], [], [litTree n.value]])
      (.cons .nil (.cons .nil (.cons (.one (lit_at hl)) .nil)))
  · refine .mk hs (by simp) ?_
    simp only [List.mem_singleton, forall_eq]
    exact InOrder.parts hp (nss := [[], [], [litTree n.value], []])
      (.cons .nil (.cons .nil (.cons (.one (lit_at hl)) (.cons .nil .nil))))

/-- A kept selection of in-order items is in order. -/
theorem InOrder.select {p} {α β : Type} {f : α → SNode} {sel : α → Option β} {f' : β → SNode} {xs : List α}
    (hsel : ∀ x y, sel x = some y → f' y = f x) (h : InOrder R p (xs.map f)) :
    InOrder R p ((xs.filterMap sel).map f') := by
  refine h.sublist ?_
  clear h
  induction xs with
  | nil => simp
  | cons x xs ih =>
    cases hx : sel x with
    | none => simpa [hx] using ih.cons _
    | some y =>
      simp only [List.filterMap_cons, hx, List.map_cons, hsel x y hx]
      exact ih.cons_cons _

theorem InOrder.last {p} {α : Type} {f : α → SNode} {xs : List α}
    (h : InOrder R p (xs.map f)) : InOrder R p (xs.getLast?.toList.map f) := by
  refine h.sublist ?_
  refine List.Sublist.map f ?_
  cases hl : xs.getLast? with
  | none => simp
  | some x => simpa using List.mem_of_getLast? hl

theorem project_at {p b} (h : ProjectD p b) : NodeAt R p (projectTree b) := by
  obtain ⟨kw, name, blk, items, hp, -, hi, hb, hs, hprops, hnote, -⟩ := h
  have hitems : InOrder R blk (items.map fun x => match x with | .note n => noteTree n | .prop a => propTree a) :=
    .braced (by intro m x hx; cases x <;> first | exact note_at hx | exact prop_at hx) hb
  refine .mk hs (by simp) ?_
  simp only [List.mem_cons, List.not_mem_nil, or_false, forall_eq_or_imp, forall_eq]
  constructor
  · refine InOrder.parts hp (nss := [[], [identTree b.ident], b.properties.map propTree])
      (.cons .nil (.cons (.one (ident_at hi)) (.cons ?_ .nil))) |> fun h => by simpa using h
    rw [hprops]
    exact hitems.select (by intro x y h; cases x <;> simp_all [ProjectItem.prop?])
  · refine InOrder.parts hp (nss := [[], [identTree b.ident], b.note.toList.map noteTree])
      (.cons .nil (.cons (.one (ident_at hi)) (.cons ?_ .nil))) |> fun h => by simpa using h
    rw [hnote]
    exact (hitems.select (by intro x y h; cases x <;> simp_all [ProjectItem.note?])).last

theorem comp_at {p cs} (h : CompositionD p cs) : InOrder R p (cs.map identTree) := by
  rcases h with ⟨c, hc, rfl⟩ | ⟨l, first, more, r, c, cs', hp, -, -, hc, ⟨ms, hm, he⟩, rfl⟩
  · exact .one (ident_at hc)
  · have h2 : InOrder R more (cs'.map identTree) := by
      rcases hm with ⟨-, rfl⟩ | hm
      · cases he; exact .nil
      · have : Each (fun m ns => InOrder R m ns) ms (cs'.map fun x => [identTree x]) :=
          he.map fun m x ⟨c, i, hp, _, hx⟩ =>
            InOrder.parts hp (nss := [[], [identTree x]]) (.cons .nil (.cons (.one (ident_at hx)) .nil))
        have := InOrder.parts hm this
        rwa [flatten_single] at this
    simpa using InOrder.parts hp (nss := [[], [identTree c], cs'.map identTree, []])
      (.cons .nil (.cons (.one (ident_at hc)) (.cons h2 (.cons .nil .nil))))

theorem refIdent_at {p r} (h : RefIdentD p r) : NodeAt R p (refIdentTree r) := by
  obtain ⟨a, dot, mid, comp, hp, -, hs, hc, h⟩ := h
  refine .mk hs (by simp) ?_
  simp only [List.mem_singleton, forall_eq]
  rcases h with ⟨-, e, hi⟩ | ⟨n, dot', s, hp2, -, hsi, e, hi⟩
  · rw [e]
    simpa using InOrder.parts hp (nss := [[identTree r.table], [], [], r.compositions.map identTree])
      (.cons (.one (ident_at hi)) (.cons .nil (.cons .nil (.cons (comp_at hc) .nil))))
  · rw [e]
    have h2 : InOrder R mid [identTree r.table] :=
      InOrder.parts hp2 (nss := [[identTree r.table], []]) (.cons (.one (ident_at hi)) (.cons .nil .nil))
    simpa using InOrder.parts hp (nss := [[identTree s], [], [identTree r.table], r.compositions.map identTree])
      (.cons (.one (ident_at hsi)) (.cons .nil (.cons h2 (.cons (comp_at hc) .nil))))

theorem refInline_at {p r} (h : RefInlineD p r) : NodeAt R p (refInlineTree r) := by
  obtain ⟨kw, colon, rel, rhs, hp, -, -, -, hr, hs⟩ := h
  refine .mk hs (by simp) ?_
  simp only [List.mem_singleton, forall_eq]
  exact InOrder.parts hp (nss := [[], [], [], [refIdentTree r.rhs]])
    (.cons .nil (.cons .nil (.cons .nil (.cons (.one (refIdent_at hr)) .nil))))

theorem attrs_at {p as} (h : BracketedD AttributeD p as) : InOrder R p (as.map attrTree) :=
  .list (fun _ _ h => attr_at h) h

theorem one_group {p raw g sp} (hsp : sp = p.span) (hr : ∀ r, raw = some r → r = p.txt)
    (hg : InOrder R p g) : NodeAt R p (.mk sp raw [g]) :=
  .mk hsp hr (by simpa using hg)

theorem refSettings_at {p s} (h : RefSettingsD p s) : NodeAt R p (refSettingsTree s) :=
  one_group h.2.1 (by simp) (attrs_at h.1)

theorem refStmt_at {p r} (h : RefStmtD p r) : NodeAt R p (refTree r) := by
  obtain ⟨l, rel, rr, st, hp, hl, -, hr, hst, hs⟩ := h
  refine one_group hs (by simp) ?_
  simpa using InOrder.parts hp
    (nss := [[refIdentTree r.lhs], [], [refIdentTree r.rhs], r.settings.toList.map refSettingsTree])
    (.cons (.one (refIdent_at hl)) (.cons .nil (.cons (.one (refIdent_at hr))
      (.cons (.opt (fun _ _ h => refSettings_at h) hst) .nil))))

/-- A ref declaration: the optional name, then the statement. -/
theorem ref_inOrder {p r} (h : RefD p r) : InOrder R p (r.name.toList.map identTree ++ [refTree r]) := by
  rcases h with ⟨kw, name, l, stmt, rr, hp, -, hn, -, -, hst⟩ | ⟨kw, name, colon, stmt, hp, -, hn, -, hst⟩
  · simpa using InOrder.parts hp (nss := [[], r.name.toList.map identTree, [], [refTree r], []])
      (.cons .nil (.cons (.opt (fun _ _ h => ident_at h) hn) (.cons .nil (.cons (.one (refStmt_at hst)) (.cons .nil .nil)))))
  · simpa using InOrder.parts hp (nss := [[], r.name.toList.map identTree, [], [refTree r]])
      (.cons .nil (.cons (.opt (fun _ _ h => ident_at h) hn) (.cons .nil (.cons (.one (refStmt_at hst)) .nil))))

theorem indexSettings_at {p s} (h : IndexSettingsD p s) : NodeAt R p (indexSettingsTree s) :=
  one_group h.2.1 (by simp) (attrs_at h.1)

theorem indexCol_at {p c} (h : IndexColD p c) : NodeAt R p (indexColTree c) := by
  cases c with
  | string i => exact ident_at h
  | expr l => exact lit_at (D := fun p v => ∃ s, QuotedD .loose k!"`" p s ∧ v = .string s) h

theorem indexDef_at {p d} (h : IndexDefD p d) : NodeAt R p (indexDefTree d) := by
  obtain ⟨hs, ⟨col, st, c, hp, hc, e, hst⟩ | ⟨l, mid, r, st, hp, -, -, hc, hst⟩⟩ := h
  · refine one_group hs (by simp) ?_
    rw [e]
    simpa using InOrder.parts hp (nss := [[indexColTree c], d.settings.toList.map indexSettingsTree])
      (.cons (.one (indexCol_at hc)) (.cons (.opt (fun _ _ h => indexSettings_at h) hst) .nil))
  · refine one_group hs (by simp) ?_
    have h2 : InOrder R mid (d.cols.map indexColTree) := by
      rcases hc with ⟨-, e⟩ | hc
      · rw [e]; exact .nil
      · exact .comma (fun _ _ h => indexCol_at h) hc
    simpa using InOrder.parts hp
      (nss := [[], d.cols.map indexColTree, [], d.settings.toList.map indexSettingsTree])
      (.cons .nil (.cons h2 (.cons .nil (.cons (.opt (fun _ _ h => indexSettings_at h) hst) .nil))))

theorem indexes_inOrder {p b} (h : IndexesD p b) : InOrder R p [indexesTree b] := by
  obtain ⟨kw, blk, hp, -, hs, hb⟩ := h
  exact InOrder.parts hp (nss := [[], [indexesTree b]])
    (.cons .nil (.cons (.one (one_group hs (by simp) (.braced (fun _ _ h => indexDef_at h) hb))) .nil))

theorem enumSettings_at {p s} (h : EnumSettingsD p s) : NodeAt R p (enumSettingsTree s) :=
  one_group h.2.1 (by simp) (attrs_at h.1)

theorem enumValue_at {p v} (h : EnumValueD p v) : NodeAt R p (enumValueTree v) := by
  obtain ⟨n, st, hp, hn, hst, hs⟩ := h
  refine one_group hs (by simp) ?_
  simpa using InOrder.parts hp (nss := [[identTree v.value], v.settings.toList.map enumSettingsTree])
    (.cons (.one (ident_at hn)) (.cons (.opt (fun _ _ h => enumSettings_at h) hst) .nil))

theorem declIdent_inOrder {p schema name} (h : DeclIdentD p schema name) :
    InOrder R p (schema.toList.map identTree ++ [identTree name]) := by
  obtain ⟨a, b, hp, ⟨-, rfl, hi⟩ | ⟨dot, n, s, hp2, -, hsi, rfl, hi⟩⟩ := h
  · simpa using InOrder.parts hp (nss := [[identTree name], []]) (.cons (.one (ident_at hi)) (.cons .nil .nil))
  · have h2 : InOrder R b [identTree name] :=
      InOrder.parts hp2 (nss := [[], [identTree name]]) (.cons .nil (.cons (.one (ident_at hi)) .nil))
    simpa using InOrder.parts hp (nss := [[identTree s], [identTree name]])
      (.cons (.one (ident_at hsi)) (.cons h2 .nil))

theorem enum_at {p e} (h : EnumD p e) : NodeAt R p (enumTree e) := by
  obtain ⟨kw, name, blk, hp, -, hn, hns, hb, hs⟩ := h
  refine one_group hs (by simp) ?_
  simpa using InOrder.parts hp (nss := [[], [enumIdentTree e.ident], e.values.map enumValueTree])
    (.cons .nil (.cons (.one (one_group hns (by simp) (declIdent_inOrder hn)))
      (.cons (.braced (fun _ _ h => enumValue_at h) hb) .nil)))

theorem colSettings_at {p s} (h : ColSettingsD p s) : NodeAt R p (colSettingsTree s) := by
  obtain ⟨items, hb, hs, ha, hr, -⟩ := h
  have hitems : InOrder R p (items.map fun x => match x with | .attr a => attrTree a | .ref a => refInlineTree a) :=
    .list (by intro m x hx; cases x <;> first | exact attr_at hx | exact refInline_at hx) hb
  refine .mk hs (by simp) ?_
  simp only [List.mem_cons, List.not_mem_nil, or_false, forall_eq_or_imp, forall_eq]
  constructor
  · rw [ha]; exact hitems.select (by intro x y h; cases x <;> simp_all [ColItem.attr?])
  · rw [hr]; exact hitems.select (by intro x y h; cases x <;> simp_all [ColItem.ref?])

theorem colType_at {p t} (h : ColTypeD p t) : NodeAt R p (colTypeTree t) := by
  obtain ⟨sc, body, name, -, hs, hr, -⟩ := h
  exact .mk hs (by rintro _ ⟨⟩; exact hr) (by simp)

theorem col_at {p c} (h : ColumnD p c) : NodeAt R p (colTree c) := by
  obtain ⟨n, ty, st, hp, hn, ht, hst, hs⟩ := h
  refine one_group hs (by simp) ?_
  simpa using InOrder.parts hp
    (nss := [[identTree c.name], [colTypeTree c.type], c.settings.toList.map colSettingsTree])
    (.cons (.one (ident_at hn)) (.cons (.one (colType_at ht))
      (.cons (.opt (fun _ _ h => colSettings_at h) hst) .nil)))

theorem alias_inOrder {p i} (h : AliasD p i) : InOrder R p [identTree i] := by
  obtain ⟨kw, n, hp, -, hi⟩ := h
  exact InOrder.parts hp (nss := [[], [identTree i]]) (.cons .nil (.cons (.one (ident_at hi)) .nil))

theorem table_at {p t} (h : TableD p t) : NodeAt R p (tableTree t) := by
  obtain ⟨kw, name, al, st, blk, items, hp, -, hn, hns, hal, hst, hb, hs, hc, hnote, hix⟩ := h
  have hblk : InOrder R blk (items.map fun x => match x with
      | .col c => colTree c | .note n => noteTree n | .indexes i => indexesTree i) := by
    obtain ⟨l, mid, r, hp, -, -, ⟨ms, hm, he⟩⟩ := hb
    have h2 : InOrder R mid (items.map fun x => match x with
        | .col c => colTree c | .note n => noteTree n | .indexes i => indexesTree i) := by
      rcases hm with ⟨-, rfl⟩ | hm
      · cases he; exact .nil
      · have : Each (fun m ns => InOrder R m ns) ms (items.map fun x => [match x with
            | .col c => colTree c | .note n => noteTree n | .indexes i => indexesTree i]) :=
          he.map fun m x hx => by
            cases x with
            | col c => exact .one (col_at hx)
            | note n => exact .one (note_at hx)
            | indexes i => exact indexes_inOrder hx
        have := InOrder.parts hm this
        rw [flatten_single] at this
        exact this
    simpa using InOrder.parts hp (nss := [[], _, []]) (.cons .nil (.cons h2 (.cons .nil .nil)))
  have hal' : InOrder R al (t.ident.alias.toList.map identTree) := by
    rcases hal with ⟨-, e⟩ | ⟨i, hi, e⟩
    · rw [e]; exact .nil
    · rw [e]; exact alias_inOrder hi
  have head : ∀ ns, InOrder R blk ns → InOrder R p (tableHead t ++ ns) := fun ns hns' => by
    have := InOrder.parts hp (nss := [[], [tableIdentTree t.ident], t.ident.alias.toList.map identTree,
      t.settings.toList.map tableSettingsTree, ns])
      (.cons .nil (.cons (.one (one_group hns (by simp) (declIdent_inOrder hn))) (.cons hal'
        (.cons (.opt (fun _ _ h => one_group h.2 (by simp) (attrs_at h.1)) hst) (.cons hns' .nil)))))
    simpa [tableHead] using this
  refine .mk hs (by simp) ?_
  simp only [List.mem_cons, List.not_mem_nil, or_false, forall_eq_or_imp, forall_eq]
  refine ⟨head _ ?_, head _ ?_, head _ ?_⟩
  · rw [hc]; exact hblk.select (by intro x y h; cases x <;> simp_all [TableItem.col?])
  · rw [hnote]; exact (hblk.select (by intro x y h; cases x <;> simp_all [TableItem.note?])).last
  · rw [hix]; exact (hblk.select (by intro x y h; cases x <;> simp_all [TableItem.indexes?])).last

theorem group_at {p g} (h : GroupD p g) : NodeAt R p (groupTree g) := by
  obtain ⟨kw, name, st, blk, items, hp, -, hn, hst, hb, hs, hit, hnote⟩ := h
  have hblk : InOrder R blk (items.map fun x => match x with
      | .note n => noteTree n | .item i => groupItemTree i) :=
    .braced (by
      intro m x hx
      cases x with
      | note n => exact note_at hx
      | item i => exact one_group hx.2 (by simp) (declIdent_inOrder hx.1)) hb
  have head : ∀ ns, InOrder R blk ns → InOrder R p (groupHead g ++ ns) := fun ns hns' => by
    have := InOrder.parts hp (nss := [[], [identTree g.ident], g.settings.toList.map groupSettingsTree, ns])
      (.cons .nil (.cons (.one (ident_at hn))
        (.cons (.opt (fun _ _ h => one_group h.2 (by simp) (attrs_at h.1)) hst) (.cons hns' .nil))))
    simpa [groupHead] using this
  refine .mk hs (by simp) ?_
  simp only [List.mem_cons, List.not_mem_nil, or_false, forall_eq_or_imp, forall_eq]
  refine ⟨head _ ?_, head _ ?_⟩
  · rw [hit]; exact hblk.select (by intro x y h; cases x <;> simp_all [GroupItem.item?])
  · rw [hnote]; exact (hblk.select (by intro x y h; cases x <;> simp_all [GroupItem.note?])).last

/-- A block, with the name before it if it is a named ref. -/
theorem block_inOrder {p b} (h : BlockD p b) :
    InOrder R p ((refName b).toList.map identTree ++ [blockTree b]) := by
  cases b with
  | project b => exact .one (project_at h)
  | table b => exact .one (table_at h)
  | tableGroup b => exact .one (group_at h)
  | note b => exact .one (note_at h)
  | ref b => exact ref_inOrder h
  | enum b => exact .one (enum_at h)

theorem blocks_inOrder {p bs} (h : ManyD .loose BlockD p bs) :
    InOrder R p ((bs.map fun b => (refName b).toList.map identTree ++ [blockTree b]).flatten) := by
  obtain ⟨ms, hm, he⟩ := h
  rcases hm with ⟨-, rfl⟩ | hm
  · cases he; exact .nil
  · exact InOrder.parts hm (he.map fun m x hx => block_inOrder hx)

/-- Everything about the spans of a document. -/
theorem schema_ok {input s} (h : SchemaD input s) : OkT input (schemaTree s) := by
  obtain ⟨start, decls, stop, hp, -, -, hd, hs, hi⟩ := h
  have hall := blocks_inOrder (R := input) hd
  have hall : InOrder input ⟨0, input⟩
      ((s.blocks.map fun b => (refName b).toList.map identTree ++ [blockTree b]).flatten) := by
    simpa using InOrder.parts hp (nss := [[], _, []]) (.cons .nil (.cons hall (.cons .nil .nil)))
  have : NodeAt input ⟨0, input⟩ (schemaTree s) := by
    refine .mk (by simp [hs, Piece.span]) (by rintro _ ⟨⟩; exact hi) ?_
    simp only [List.mem_cons, List.not_mem_nil, or_false, forall_eq_or_imp, forall_eq]
    constructor
    · refine hall.sublist ?_
      generalize s.blocks = bs
      induction bs with
      | nil => simp
      | cons b bs ih =>
        simp only [List.map_cons, List.flatten_cons, List.append_assoc]
        refine List.Sublist.trans ?_ (List.sublist_append_right _ _)
        exact ih.cons_cons _
    · refine hall.sublist ?_
      generalize s.blocks = bs
      induction bs with
      | nil => simp
      | cons b bs ih =>
        cases hb : refName b with
        | none =>
          simp only [List.map_cons, List.flatten_cons, hb, List.filterMap_cons]
          exact ih.trans (List.sublist_append_right _ _)
        | some i =>
          simp only [List.map_cons, List.flatten_cons, hb, List.filterMap_cons, Option.toList,
            List.map_nil, List.cons_append, List.nil_append]
          exact (ih.cons _).cons_cons _
  exact (this (Syntax.Sub.refl _)).2

theorem OkT.mem {input root n} (h : OkT input root) (hin : SNode.In n root) : OkT input n := by
  induction hin with
  | self => exact h
  | child hg hk _ ih =>
    cases h with
    | mk _ _ _ _ hc => exact ih (hc _ hg _ hk)

end Dbml

import Verif.Proofs.Kinds
import Verif.Spec.Repair
import Verif.Proofs.Columns

/-!
# The first check that fails still fails when declarations are added, unless something was missing
-/

namespace Dbml.Spec
open Dbml

variable {s s' : SchemaBlock}

/-- The verdict says that something is missing. -/
def Lacks (v : Verdict) : Prop := ∃ e sp, v = .error e sp ∧ Missing e

/-- If the checks `l` have a verdict, then it says that something is missing, or the checks `l'` fail, or not `Q`. -/
def Keeps (Q : Prop) (l l' : List Check) : Prop := ∀ v, Decides l v → Lacks v ∨ ¬ Passes l' ∨ ¬ Q

variable {Q : Prop}

theorem keeps_nil (l' : List Check) : Keeps Q [] l' := by
  rintro v ⟨pre, c, post, h, -⟩
  simp at h

theorem keeps_cons {c : Check} {l l' : List Check} (h : c.bad → Lacks c.verdict ∨ ¬ Passes l' ∨ ¬ Q)
    (h' : ¬ c.bad → Keeps Q l l') : Keeps Q (c :: l) l' := by
  rintro v ⟨pre, d, post, e, hp, hb, rfl⟩
  cases pre with
  | nil =>
    obtain ⟨rfl, rfl⟩ := List.cons.inj e
    exact h hb
  | cons x pre =>
    obtain ⟨rfl, rfl⟩ := List.cons.inj e
    exact h' (hp _ (by simp)) _ ⟨pre, d, post, rfl, fun y hy => hp y (by simp [hy]), hb, rfl⟩

theorem keeps_append {l m l' m' : List Check} (h : Keeps Q l l') (h' : Keeps Q m m') : Keeps Q (l ++ m) (l' ++ m') := by
  have lift : ∀ {a b : List Check} {v}, (Lacks v ∨ ¬ Passes a ∨ ¬ Q) → (Passes b → Passes a) → Lacks v ∨ ¬ Passes b ∨ ¬ Q :=
    fun x y => x.imp_right fun z => z.imp_left fun w u => w (y u)
  induction l with
  | nil =>
    intro v hv
    exact lift (h' v hv) fun p c hc => p c (by simp [hc])
  | cons c l ih =>
    refine keeps_cons (fun hb => ?_) fun hb => ih ?_
    · exact lift (h _ ⟨[], c, l, rfl, by simp [Passes], hb, rfl⟩) fun p c hc => p c (by simp [hc])
    · rintro v ⟨pre, d, post, rfl, hp, hd, rfl⟩
      exact h _ ⟨c :: pre, d, post, rfl, by
        intro x hx
        rcases List.mem_cons.1 hx with rfl | hx
        · exact hb
        · exact hp x hx, hd, rfl⟩

/-- Fewer checks on the right are enough. -/
theorem keeps_mono {l l' m' : List Check} (h : Keeps Q l l') (hs : ∀ c ∈ l', c ∈ m') : Keeps Q l m' :=
  fun v hv => (h v hv).imp_right fun z => z.imp_left fun w u => w fun c hc => u c (hs c hc)

theorem keeps_refl (l : List Check) : Keeps Q l l := by
  rintro v ⟨pre, d, post, rfl, hp, hd, rfl⟩
  exact .inr (.inl fun h => h d (by simp) hd)

theorem keeps_err {p q : Prop} {e e' : Err} {sp sp' : Span} {l l' : List Check} (h : p → q) (hl : Keeps Q l l') :
    Keeps Q (.err p e sp :: l) (.err q e' sp' :: l') :=
  keeps_cons (fun hp => .inr (.inl fun h' => h' (.err q e' sp') (by simp) (h hp))) fun _ => keeps_mono hl fun c hc => by simp [hc]

theorem keeps_err1 {p q : Prop} {e e' : Err} {sp sp' : Span} (h : p → q) :
    Keeps Q [.err p e sp] [.err q e' sp'] := keeps_err h (keeps_nil _)

theorem keeps_missing {p : Prop} {e : Err} {sp : Span} {l l' : List Check} (h : Missing e) (hl : ¬ p → Keeps Q l l') :
    Keeps Q (.err p e sp :: l) l' := keeps_cons (fun _ => .inl ⟨e, sp, rfl, h⟩) hl

theorem keeps_flatMap {α : Type} {f g : α → List Check} {l l' : List α} (hs : ∀ a ∈ l, a ∈ l')
    (h : ∀ a ∈ l, Keeps Q (f a) (g a)) : Keeps Q (l.flatMap f) (l'.flatMap g) := by
  induction l with
  | nil => exact keeps_nil _
  | cons a l ih =>
    rw [List.flatMap_cons]
    have h1 := keeps_append (h a (by simp)) (ih (fun b hb => hs b (by simp [hb])) fun b hb => h b (by simp [hb]))
    refine keeps_mono h1 fun c hc => ?_
    rcases List.mem_append.1 hc with hc | hc
    · exact List.mem_flatMap.2 ⟨a, hs a (by simp), hc⟩
    · exact hc

theorem mem_inTurn {α : Type} {f : List α → α → List α → List Check} {b l : List α} {c : Check} :
    c ∈ inTurn f b l ↔ ∃ p x q, l = p ++ x :: q ∧ c ∈ f (b ++ p) x q := by
  induction l generalizing b with
  | nil => simp [inTurn]
  | cons a l ih =>
    rw [inTurn, List.mem_append, ih]
    constructor
    · rintro (h | ⟨p, x, q, rfl, h⟩)
      · exact ⟨[], a, l, rfl, by simpa using h⟩
      · exact ⟨a :: p, x, q, rfl, by simpa using h⟩
    · rintro ⟨p, x, q, e, h⟩
      cases p with
      | nil =>
        obtain ⟨rfl, rfl⟩ := List.cons.inj e
        exact .inl (by simpa using h)
      | cons y p =>
        obtain ⟨rfl, rfl⟩ := List.cons.inj e
        exact .inr ⟨p, x, q, rfl, by simpa using h⟩

/-- Checks in turn, for a list and a longer one. -/
theorem keeps_inTurn {α : Type} {f g : List α → α → List α → List Check}
    (h : ∀ b b' x a a', b.Sublist b' → a.Sublist a' → Keeps Q (f b x a) (g b' x a')) {b b' l l' : List α}
    (hb : b.Sublist b') (hl : l.Sublist l') : Keeps Q (inTurn f b l) (inTurn g b' l') := by
  induction hl generalizing b b' with
  | slnil => exact keeps_nil _
  | cons a hl ih =>
    rw [inTurn]
    exact keeps_mono (ih (hb.trans (List.sublist_append_left b' [a]))) fun c hc => List.mem_append_right _ hc
  | cons_cons a hl ih =>
    rw [inTurn, inTurn]
    exact keeps_append (h _ _ _ _ _ hb hl) (ih (hb.append (List.Sublist.refl _)))

/-! ## Blocks -/

/-- Further declarations, none of which declares an alias. -/
structure More (s s' : SchemaBlock) : Prop where
  blocks : s.blocks.Sublist s'.blocks
  aliases : ∀ a t, IsAlias s' a t → IsAlias s a t

namespace More

theorem projects (h : More s s') : s.projects.Sublist s'.projects := h.blocks.filterMap _
theorem tables (h : More s s') : s.tables.Sublist s'.tables := h.blocks.filterMap _
theorem enums (h : More s s') : s.enums.Sublist s'.enums := h.blocks.filterMap _
theorem groups (h : More s s') : s.table_groups.Sublist s'.table_groups := h.blocks.filterMap _
theorem refs (h : More s s') : s.refs.Sublist s'.refs := h.blocks.filterMap _

theorem flatMap {α β : Type} (f : α → List β) {l l' : List α} (h : l.Sublist l') : (l.flatMap f).Sublist (l'.flatMap f) := by
  induction h with
  | slnil => exact List.Sublist.refl _
  | cons a _ ih => rw [List.flatMap_cons]; exact ih.trans (List.sublist_append_right _ _)
  | cons_cons a _ ih => rw [List.flatMap_cons, List.flatMap_cons]; exact (List.Sublist.refl _).append ih

theorem columns (h : More s s') : (columns s).Sublist (columns s') := flatMap _ h.tables
theorem inOrder (h : More s s') : (refsInOrder s).Sublist (refsInOrder s') :=
  (h.refs.map _).append (flatMap _ h.tables)

theorem isAlias (h : More s s') (a : Str) (t : TableBlock) : IsAlias s' a t ↔ IsAlias s a t :=
  ⟨h.aliases a t, fun x => ⟨h.tables.subset x.1, x.2⟩⟩

theorem unaliased (h : More s s') (e e' : End) : Unaliased s' e e' ↔ Unaliased s e e' := by
  unfold Unaliased
  simp only [h.isAlias]

theorem groupTarget (h : More s s') {i : TableGroupItem} {k : Str × Str} (g : GroupTarget s i k) : GroupTarget s' i k := by
  unfold GroupTarget at *
  cases hi : i.schema with
  | some sc => simpa [hi] using g
  | none =>
    simp only [hi, h.isAlias] at g ⊢
    exact g.imp_right fun ⟨x, y, t, ht, e⟩ => ⟨x, y, t, h.tables.subset ht, e⟩

theorem names (h : More s s') {e : End} {t : TableBlock} (n : Names s e t) : Names s' e t := ⟨h.tables.subset n.1, n.2⟩

theorem competes (h : More s s') (a b : Link) : Competes s' a b ↔ Competes s a b := by
  unfold Competes
  simp only [h.unaliased]

end More

/-! ## The checks -/

theorem keeps_project (h : More s s') : Keeps Q (projectChecks s) (projectChecks s') := by
  unfold projectChecks
  refine keeps_append (keeps_err (fun x => Nat.le_trans x h.projects.length_le) (keeps_missing .project fun _ => keeps_nil _)) ?_
  exact keeps_flatMap h.projects.subset fun p _ => keeps_refl _

theorem keeps_table {b b' : List TableBlock} (hb : b.Sublist b') (t : TableBlock) :
    Keeps Q (tableChecks b t) (tableChecks b' t) := by
  unfold tableChecks
  refine keeps_append (keeps_append (keeps_append (keeps_refl _) (keeps_err1 ?_)) (keeps_refl _)) ?_
  · exact fun ⟨u, hu, e⟩ => ⟨u, hb.subset hu, e⟩
  · cases t.ident.alias with
    | none => exact keeps_nil _
    | some a => exact keeps_err1 fun ⟨u, hu, e⟩ => ⟨u, hb.subset hu, e⟩

theorem keeps_enum {b b' : List EnumBlock} (hb : b.Sublist b') (e : EnumBlock) :
    Keeps Q (enumChecks b e) (enumChecks b' e) := by
  unfold enumChecks
  exact keeps_append (keeps_err1 fun ⟨u, hu, e⟩ => ⟨u, hb.subset hu, e⟩) (keeps_refl _)

theorem keeps_group (h : More s s') {b b' : List TableGroupBlock} (hb : b.Sublist b') (g : TableGroupBlock) :
    Keeps Q (groupChecks s b g) (groupChecks s' b' g) := by
  unfold groupChecks
  refine keeps_append (keeps_err1 fun ⟨u, hu, e⟩ => ⟨u, hb.subset hu, e⟩) ?_
  refine keeps_inTurn (fun b b' x a a' hb _ => ?_) (List.Sublist.refl _) (List.Sublist.refl _)
  refine keeps_missing .table fun _ => ?_
  refine keeps_mono (keeps_err1 (sp' := x.span_range) (e' := .duplicateTableGroupItem)
    (q := ∃ j ∈ b', ∃ k, GroupTarget s' j k ∧ GroupTarget s' x k) ?_) fun c hc => List.mem_cons_of_mem _ hc
  exact fun ⟨j, hj, k, h1, h2⟩ => ⟨j, hb.subset hj, k, h.groupTarget h1, h.groupTarget h2⟩

theorem keeps_column (h : More s s') (c : TableColumn) :
    Keeps (s'.enums.map enumKey).Nodup (columnChecks s c) (columnChecks s' c) := by
  unfold columnChecks
  cases c.type.type_name with
  | raw n =>
    refine keeps_append ?_ (keeps_refl _)
    cases hf : ColumnTypeName.fromStr n with
    | some ty => exact keeps_refl _
    | none =>
      refine keeps_append (keeps_refl _) (keeps_flatMap (fun _ x => x) fun v _ => ?_)
      refine keeps_missing .schema fun _ => keeps_missing .enum fun he => keeps_cons (fun hb => .inr ?_) fun _ => keeps_nil _
      by_contra hc
      rw [not_or, not_not, not_not] at hc
      obtain ⟨hp, hq⟩ := hc
      apply he
      intro k hk e hes hek
      have h3 := hp (.err (∀ k, EnumRef n k → ¬ HasEnumValue s' k v.toStr) .enumValueNotFound (defaultPlace c)) (by simp)
      apply h3
      rintro k' hk' ⟨e', he', hek', hv⟩
      have hk2 : k' = k := EnumRef.unique hk' hk
      subst hk2
      have : e' = e := List.inj_on_of_nodup_map hq he' (h.enums.subset hes) (hek'.trans hek.symm)
      subst this
      exact hb _ hk' ⟨e', hes, hek', hv⟩
  | _ => exact keeps_nil _

theorem keeps_end (h : More s s') (e : RefIdent) : Keeps Q (endChecks s e) (endChecks s' e) := by
  unfold endChecks
  refine keeps_append (keeps_missing .schema fun _ => keeps_missing .table fun _ => keeps_nil _) ?_
  rw [List.map_eq_flatMap, List.map_eq_flatMap]
  refine keeps_flatMap (fun _ x => x) fun i _ => keeps_err1 ?_
  rintro ⟨e', t, hu, ht, hk, hn⟩
  exact ⟨e', t, (h.unaliased _ _).2 hu, h.tables.subset ht, hk, hn⟩

theorem keeps_ref (h : More s s') {b b' a a' : List IndexedRef} (hb : b.Sublist b') (ha : a.Sublist a') (r : IndexedRef) :
    Keeps Q (refChecks s b r a) (refChecks s' b' r a') := by
  unfold refChecks
  refine keeps_append (keeps_append (keeps_append (keeps_append (keeps_append (keeps_refl _) (keeps_end h _)) (keeps_end h _)) ?_) ?_) ?_
  · exact keeps_missing .table fun _ => keeps_missing .table fun _ => keeps_nil _
  · refine keeps_flatMap (fun _ x => x) fun p _ => ?_
    rw [List.map_eq_flatMap, List.map_eq_flatMap]
    refine keeps_flatMap h.columns.subset fun d _ => keeps_err1 ?_
    rintro ⟨el, er, tl, tr, c, h1, h2, h3, h4, h5⟩
    exact ⟨el, er, tl, tr, c, (h.unaliased _ _).2 h1, (h.unaliased _ _).2 h2, h.names h3, h.names h4, h5⟩
  · refine keeps_err ?_ (keeps_err1 ?_)
    · rintro ⟨el, er, tl, tr, h1, h2, h3, h4, h5⟩
      exact ⟨el, er, tl, tr, (h.unaliased _ _).2 h1, (h.unaliased _ _).2 h2, h.names h3, h.names h4, h5⟩
    · refine Or.imp_right ?_
      rintro ⟨o, ho, hc⟩
      exact ⟨o, (hb.append ha).subset ho, (h.competes _ _).2 hc⟩

/-- The enums of a schema whose checks pass have different names. -/
theorem enums_nodup {l b : List EnumBlock} (h : Passes (inTurn (fun before e _ => enumChecks before e) b l)) :
    (l.map enumKey).Nodup := by
  rw [List.Nodup, List.pairwise_map, List.pairwise_iff_getElem]
  intro i j hi hj hij e
  have hc : Check.err (∃ u ∈ b ++ l.take j, enumKey u = enumKey l[j]) .duplicateEnumName l[j].ident.span_range ∈
      inTurn (fun before e _ => enumChecks before e) b l :=
    mem_inTurn.2 ⟨l.take j, l[j], l.drop (j + 1), by simp, by unfold enumChecks; simp⟩
  refine h _ hc ⟨l[i], ?_, e⟩
  rw [List.mem_append]
  exact .inr (List.mem_take_iff_getElem.2 ⟨i, by omega, rfl⟩)

theorem keeps_checklist (h : More s s') : Keeps (s'.enums.map enumKey).Nodup (checklist s) (checklist s') := by
  unfold checklist
  refine keeps_append (keeps_append (keeps_append (keeps_append (keeps_append (keeps_append (keeps_project h) ?_) ?_) ?_) ?_) ?_) ?_
  · exact keeps_inTurn (fun b b' x _ _ hb _ => keeps_table hb x) (List.Sublist.refl _) h.tables
  · exact keeps_inTurn (fun b b' x _ _ hb _ => keeps_enum hb x) (List.Sublist.refl _) h.enums
  · exact keeps_inTurn (fun b b' x _ _ hb _ => keeps_group h hb x) (List.Sublist.refl _) h.groups
  · exact keeps_flatMap h.tables.subset fun t _ => keeps_refl _
  · exact keeps_flatMap h.columns.subset fun c _ => keeps_column h c
  · exact keeps_inTurn (fun b b' x a a' hb ha => keeps_ref h hb ha x) (List.Sublist.refl _) h.inOrder

theorem more_decides (h : More s s') (hp : Passes (checklist s')) {v : Verdict} (hv : Decides (checklist s) v) : Lacks v := by
  rcases keeps_checklist h v hv with h1 | h1 | h1
  · exact h1
  · exact absurd hp h1
  · refine absurd (enums_nodup (b := []) fun c hc => hp c ?_) h1
    unfold checklist
    simp [hc]

/-- Equally many elements have a value under `f` in a list and in a longer one: the others have none. -/
theorem filterMap_eq_of_sublist {α β : Type} {f : α → Option β} {l l' : List α} (h : l.Sublist l')
    (e : l'.filterMap f = l.filterMap f) {x : α} {b : β} (hx : x ∈ l') (hf : f x = some b) : x ∈ l := by
  induction h with
  | slnil => exact hx
  | cons a h ih =>
    rename_i m m'
    rw [List.filterMap_cons] at e
    have hle := (h.filterMap f).length_le
    cases ha : f a with
    | none =>
      rw [ha] at e
      rcases List.mem_cons.1 hx with rfl | hx
      · rw [hf] at ha; cases ha
      · exact ih e hx
    | some b' =>
      rw [ha] at e
      have := congrArg List.length e
      simp only [List.length_cons] at this
      omega
  | cons_cons a h ih =>
    rcases List.mem_cons.1 hx with rfl | hx
    · simp
    · refine List.mem_cons_of_mem _ (ih ?_ hx)
      rw [List.filterMap_cons, List.filterMap_cons] at e
      cases ha : f a with
      | none => rw [ha] at e; exact e
      | some b' => rw [ha] at e; exact (List.cons.inj e).2

theorem Adds.more (h : Adds s s') : More (core {} s) (core {} s') where
  blocks := h.blocks
  aliases := by
    have ht : (core {} s).tables.Sublist (core {} s').tables := h.blocks.filterMap _
    have ha : ∀ s : SchemaBlock, (core {} s).tables.filterMap aliasOf = s.tables.filterMap aliasOf := by
      intro s
      rw [core_tables, List.filterMap_map]
      congr 1; funext t
      simp [core_aliasOf]
    rintro a t ⟨hm, hal⟩
    exact ⟨filterMap_eq_of_sublist ht (by rw [ha, ha, h.aliases]) hm hal, hal⟩

end Dbml.Spec

import Verif.Spec.Alike
import Verif.Proofs.Refs
import Mathlib.Data.List.Nodup
import Mathlib.Data.List.Zip

/-!
# Schemas that are alike are valid together
-/

namespace Dbml
open Spec

/-! ## Matched lists -/

section
variable {α : Type} {R : α → α → Prop} {l l' : List α}

theorem forall₂_symm (hR : ∀ a b, R a b → R b a) : ∀ {l l' : List α}, List.Forall₂ R l l' → List.Forall₂ R l' l
  | _, _, .nil => .nil
  | _, _, .cons h t => .cons (hR _ _ h) (forall₂_symm hR t)

theorem forall₂_refl (hR : ∀ a, R a a) : ∀ l : List α, List.Forall₂ R l l
  | [] => .nil
  | a :: l => .cons (hR a) (forall₂_refl hR l)

theorem Spec.Matched.symm (hR : ∀ a b, R a b → R b a) (h : Matched R l l') : Matched R l' l := by
  obtain ⟨m, h1, h2⟩ := h
  obtain ⟨k, h4, h5⟩ := List.perm_comp_forall₂ h1 h2
  exact ⟨k, h5.symm, forall₂_symm hR h4⟩

theorem Spec.Matched.of_perm (hR : ∀ a, R a a) (h : l.Perm l') : Matched R l l' := ⟨l', h, forall₂_refl hR l'⟩

theorem forall₂_mem : ∀ {l l' : List α}, List.Forall₂ R l l' → ∀ a ∈ l, ∃ b ∈ l', R a b
  | _, _, .nil => by simp
  | _, _, .cons (a := a) (b := b) h t => by
    intro x hx
    rcases List.mem_cons.1 hx with rfl | hx
    · exact ⟨b, by simp, h⟩
    · obtain ⟨y, hy, hr⟩ := forall₂_mem t x hx
      exact ⟨y, by simp [hy], hr⟩

theorem Spec.Matched.mem (h : Matched R l l') {a : α} (ha : a ∈ l) : ∃ b ∈ l', R a b := by
  obtain ⟨m, h1, h2⟩ := h
  exact forall₂_mem h2 a (h1.mem_iff.1 ha)

theorem forall₂_mem' : ∀ {l l' : List α}, List.Forall₂ R l l' → ∀ b ∈ l', ∃ a ∈ l, R a b
  | _, _, .nil => by simp
  | _, _, .cons (a := a) (b := b) h t => by
    intro x hx
    rcases List.mem_cons.1 hx with rfl | hx
    · exact ⟨a, by simp, h⟩
    · obtain ⟨y, hy, hr⟩ := forall₂_mem' t x hx
      exact ⟨y, by simp [hy], hr⟩

theorem Spec.Matched.mem' (h : Matched R l l') {b : α} (hb : b ∈ l') : ∃ a ∈ l, R a b := by
  obtain ⟨m, h1, h2⟩ := h
  obtain ⟨a, ha, hr⟩ := forall₂_mem' h2 b hb
  exact ⟨a, h1.mem_iff.2 ha, hr⟩

theorem forall₂_map {β : Type} {f : α → β} (hf : ∀ a b, R a b → f a = f b) :
    ∀ {l l' : List α}, List.Forall₂ R l l' → l.map f = l'.map f
  | _, _, .nil => rfl
  | _, _, .cons h t => by rw [List.map_cons, List.map_cons, hf _ _ h, forall₂_map hf t]

theorem Spec.Matched.map {β : Type} {f : α → β} (hf : ∀ a b, R a b → f a = f b) (h : Matched R l l') :
    (l.map f).Perm (l'.map f) := by
  obtain ⟨m, h1, h2⟩ := h
  rw [← forall₂_map hf h2]
  exact h1.map f

theorem forall₂_filterMap {β : Type} {f : α → Option β} (hf : ∀ a b, R a b → f a = f b) :
    ∀ {l l' : List α}, List.Forall₂ R l l' → l.filterMap f = l'.filterMap f
  | _, _, .nil => rfl
  | _, _, .cons h t => by rw [List.filterMap_cons, List.filterMap_cons, hf _ _ h, forall₂_filterMap hf t]

theorem Spec.Matched.filterMap {β : Type} {f : α → Option β} (hf : ∀ a b, R a b → f a = f b) (h : Matched R l l') :
    (l.filterMap f).Perm (l'.filterMap f) := by
  obtain ⟨m, h1, h2⟩ := h
  rw [← forall₂_filterMap hf h2]
  exact h1.filterMap f

theorem forall₂_filter {p : α → Prop} [DecidablePred p] (hf : ∀ a b, R a b → (p a ↔ p b)) :
    ∀ {l l' : List α}, List.Forall₂ R l l' → List.Forall₂ R (l.filter (fun a => p a)) (l'.filter (fun a => p a))
  | _, _, .nil => .nil
  | _, _, .cons (a := a) (b := b) h t => by
    rw [List.filter_cons, List.filter_cons]
    by_cases hp : p a
    · rw [if_pos (by simpa using hp), if_pos (by simpa using (hf _ _ h).1 hp)]
      exact .cons h (forall₂_filter hf t)
    · rw [if_neg (by simpa using hp), if_neg (by simpa using fun hb => hp ((hf _ _ h).2 hb))]
      exact forall₂_filter hf t

theorem Spec.Matched.filter {p : α → Prop} [DecidablePred p] (hf : ∀ a b, R a b → (p a ↔ p b)) (h : Matched R l l') :
    Matched R (l.filter (fun a => p a)) (l'.filter (fun a => p a)) := by
  obtain ⟨m, h1, h2⟩ := h
  exact ⟨_, h1.filter _, forall₂_filter hf h2⟩

theorem Spec.Matched.length (h : Matched R l l') : l.length = l'.length := by
  obtain ⟨m, h1, h2⟩ := h
  rw [h1.length_eq, h2.length_eq]

theorem forall₂_pairwise {Q : α → α → Prop} (hQ : ∀ a b a' b', R a a' → R b b' → Q a b → Q a' b') :
    ∀ {l l' : List α}, List.Forall₂ R l l' → l.Pairwise Q → l'.Pairwise Q
  | _, _, .nil, _ => .nil
  | _, _, .cons h t, hp => by
    rw [List.pairwise_cons] at hp ⊢
    refine ⟨fun y hy => ?_, forall₂_pairwise hQ t hp.2⟩
    obtain ⟨x, hx, hr⟩ := forall₂_mem' t y hy
    exact hQ _ _ _ _ h hr (hp.1 x hx)

theorem Spec.Matched.pairwise {Q : α → α → Prop} (hs : ∀ {a b}, Q a b → Q b a)
    (hQ : ∀ a b a' b', R a a' → R b b' → Q a b → Q a' b') (h : Matched R l l') (hp : l.Pairwise Q) : l'.Pairwise Q := by
  obtain ⟨m, h1, h2⟩ := h
  exact forall₂_pairwise hQ h2 ((h1.pairwise_iff hs).1 hp)

end

/-! ## Symmetry -/

theorem Spec.SameColumn.symm {c d : TableColumn} (h : SameColumn c d) : SameColumn d c :=
  ⟨h.name.symm, h.typeName.symm, h.args.symm, h.arrays.symm, h.pk.symm, h.unique.symm, h.nullable.symm, h.default.symm,
    h.keys.symm⟩
theorem Spec.SameColumn.rfl {c : TableColumn} : SameColumn c c :=
  ⟨Eq.refl _, Eq.refl _, Eq.refl _, Eq.refl _, Iff.rfl, Iff.rfl, Eq.refl _, Eq.refl _, .refl _⟩
theorem Spec.SameIndex.symm {c d : IndexesDef} (h : SameIndex c d) : SameIndex d c :=
  ⟨h.parts.symm, h.pk.symm, h.unique.symm, h.plain.symm, h.type.symm, h.keys.symm⟩
theorem Spec.SameIndex.rfl {c : IndexesDef} : SameIndex c c :=
  ⟨Eq.refl _, Iff.rfl, Iff.rfl, Iff.rfl, Eq.refl _, .refl _⟩
theorem Spec.SameTable.symm {t u : TableBlock} (h : SameTable t u) : SameTable u t :=
  ⟨h.schema.symm, h.name.symm, h.alias.symm, h.cols.symm fun _ _ => .symm, forall₂_symm (fun _ _ => .symm) h.indexes, h.keys.symm⟩
theorem Spec.SameTable.rfl {t : TableBlock} : SameTable t t :=
  ⟨Eq.refl _, Eq.refl _, Eq.refl _, .of_perm (fun _ => .rfl) (.refl _), forall₂_refl (fun _ => .rfl) _, .refl _⟩
theorem Spec.SameValue.symm {c d : EnumValue} (h : SameValue c d) : SameValue d c := ⟨h.1.symm, h.2.symm⟩
theorem Spec.SameValue.rfl {c : EnumValue} : SameValue c c := ⟨Eq.refl _, .refl _⟩
theorem Spec.SameEnum.symm {c d : EnumBlock} (h : SameEnum c d) : SameEnum d c := ⟨h.1.symm, h.2.symm fun _ _ => .symm⟩
theorem Spec.SameEnum.rfl {c : EnumBlock} : SameEnum c c := ⟨Eq.refl _, .of_perm (fun _ => .rfl) (.refl _)⟩
theorem Spec.SameItem.symm {c d : TableGroupItem} (h : SameItem c d) : SameItem d c := ⟨h.1.symm, h.2.symm⟩
theorem Spec.SameItem.rfl {c : TableGroupItem} : SameItem c c := ⟨Eq.refl _, Eq.refl _⟩
theorem Spec.SameGroup.symm {c d : TableGroupBlock} (h : SameGroup c d) : SameGroup d c := ⟨h.1.symm, h.2.symm fun _ _ => .symm⟩
theorem Spec.SameGroup.rfl {c : TableGroupBlock} : SameGroup c c := ⟨Eq.refl _, .of_perm (fun _ => .rfl) (.refl _)⟩
theorem Spec.SameProject.symm {c d : ProjectBlock} (h : SameProject c d) : SameProject d c := List.Perm.symm h
theorem Spec.SameProject.rfl {c : ProjectBlock} : SameProject c c := .refl _

theorem turned_turned (r : Relation) : turned (turned r) = r := by cases r <;> rfl
theorem Spec.Link.turn_turn (k : Link) : k.turn.turn = k := by
  obtain ⟨r, a, b⟩ := k
  simp [Link.turn, turned_turned]

variable {s u : SchemaBlock}

theorem Spec.SameName.symm {a b : End} (h : SameName s a b) : SameName s b a := by
  obtain ⟨a', b', h1, h2, h3, h4⟩ := h
  exact ⟨b', a', h2, h1, h3.symm, h4.symm⟩

theorem unaliased_total (s : SchemaBlock) (a : End) : ∃ a', Unaliased s a a' := by
  by_cases h : ∃ t, IsAlias s a.table t
  · obtain ⟨t, ht⟩ := h
    exact ⟨_, .inl ⟨t, ht, rfl⟩⟩
  · exact ⟨a, .inr ⟨fun t ht => h ⟨t, ht⟩, rfl⟩⟩

theorem Spec.SameName.rfl {a : End} : SameName s a a := by
  obtain ⟨a', h⟩ := unaliased_total s a
  exact ⟨a', a', h, h, Eq.refl _, Eq.refl _⟩

theorem Spec.SamePairs.symm {a b : Link} (h : SamePairs a b) : SamePairs b a := by
  rcases h with ⟨h1, h2⟩ | ⟨ps, qs, h1, h2, h3, h4, h5⟩
  · exact .inl ⟨h1.symm, h2.symm⟩
  · exact .inr ⟨qs, ps, h1.symm, h4, h5, h2, h3⟩

theorem Spec.SamePairs.turn {a b : Link} (h : SamePairs a b) : SamePairs a.turn b.turn := by
  rcases h with ⟨h1, h2⟩ | ⟨ps, qs, h1, h2, h3, h4, h5⟩
  · exact .inl ⟨h2, h1⟩
  · refine .inr ⟨ps.map Prod.swap, qs.map Prod.swap, h1.map _, ?_, ?_, ?_, ?_⟩ <;> simp [Link.turn, Function.comp_def, *]

theorem Spec.Aligned.symm {a b : Link} (h : Aligned s a b) : Aligned s b a :=
  ⟨h.1.symm, h.2.1.symm, h.2.2.1.symm, h.2.2.2.symm⟩
theorem Spec.Aligned.turn {a b : Link} (h : Aligned s a b) : Aligned s a.turn b.turn :=
  ⟨congrArg turned h.1, h.2.2.1, h.2.1, h.2.2.2.turn⟩
theorem Spec.SameLink.symm {a b : Link} (h : SameLink s a b) : SameLink s b a := by
  rcases h with h | h
  · exact .inl h.symm
  · have := h.symm.turn
    rw [Link.turn_turn] at this
    exact .inr this
theorem Spec.SameLink.rfl {a : Link} : SameLink s a a := .inl ⟨Eq.refl _, .rfl, .rfl, .inl ⟨Eq.refl _, Eq.refl _⟩⟩

/-! ## Tables, aliases, groups -/

theorem Spec.SameTable.key {t T : TableBlock} (h : SameTable t T) : tableKey t = tableKey T := by
  have h1 := h.schema
  have h2 := h.name
  unfold tableKey schemaOf
  rw [h2]
  cases ht : t.ident.schema <;> cases hT : T.ident.schema <;> simp_all

section
variable (h : Matched SameTable s.tables u.tables)
include h

theorem alike_isAlias {a : Str} {t : TableBlock} (ht : IsAlias s a t) : ∃ T, IsAlias u a T ∧ SameTable t T := by
  obtain ⟨T, hT, hs⟩ := h.mem ht.1
  exact ⟨T, ⟨hT, hs.alias.symm.trans ht.2⟩, hs⟩

theorem alike_unaliased {e e' : End} (hu : Unaliased s e e') : Unaliased u e e' := by
  have hsym : Matched SameTable u.tables s.tables := h.symm fun _ _ => .symm
  rcases hu with ⟨x, hx, rfl⟩ | ⟨hn, rfl⟩
  · obtain ⟨y, hy, hk⟩ := alike_isAlias h hx
    exact .inl ⟨y, hy, by rw [hk.key]⟩
  · refine .inr ⟨fun y hy => ?_, rfl⟩
    obtain ⟨x, hx, -⟩ := alike_isAlias hsym hy
    exact hn x hx

theorem alike_groupTarget {i j : TableGroupItem} (hij : SameItem i j) {k : Str × Str} (hg : GroupTarget s i k) :
    GroupTarget u j k := by
  have hsym : Matched SameTable u.tables s.tables := h.symm fun _ _ => .symm
  obtain ⟨h1, h2⟩ := hij
  unfold GroupTarget at hg ⊢
  cases hi : i.schema with
  | some sc =>
    cases hj : j.schema with
    | none => simp [hi, hj] at h1
    | some sc' =>
      simp only [hi] at hg
      simp only [hi, hj, Option.map_some, Option.some.injEq] at h1
      simp only
      rw [hg, h1, h2]
  | none =>
    cases hj : j.schema with
    | some sc' => simp [hi, hj] at h1
    | none =>
      simp only [hi] at hg
      simp only
      rw [← h2]
      rcases hg with ⟨x, hx, rfl⟩ | ⟨hn, hk, x, hx, hxk⟩
      · obtain ⟨y, hy, hk⟩ := alike_isAlias h hx
        exact .inl ⟨y, hy, hk.key⟩
      · refine .inr ⟨fun y hy => ?_, hk, ?_⟩
        · obtain ⟨x, hx, -⟩ := alike_isAlias hsym hy
          exact hn x hx
        · obtain ⟨y, hy, hs⟩ := h.mem hx
          exact ⟨y, hy, hs.key.symm.trans hxk⟩

theorem alike_names {e e' : End} (he : e.schema = e'.schema ∧ e.table = e'.table) {t : TableBlock} (hn : Names s e t) :
    ∃ T, Names u e' T ∧ SameTable t T := by
  obtain ⟨T, hT, hs⟩ := h.mem hn.1
  exact ⟨T, ⟨hT, hs.schema.symm.trans (hn.2.1.trans he.1), hs.name.symm.trans (hn.2.2.trans he.2)⟩, hs⟩

end

theorem groupTargets_perm {s : SchemaBlock} {is js : List TableGroupItem} (h : is.Perm js) :
    ∀ ks, GroupTargets s is ks → ∃ ks', GroupTargets s js ks' ∧ ks.Perm ks' := by
  induction h with
  | nil => exact fun ks h => ⟨ks, h, .refl _⟩
  | cons x _ ih =>
    rintro _ (_ | ⟨h1, h2⟩)
    obtain ⟨ks', h3, h4⟩ := ih _ h2
    exact ⟨_, .cons h1 h3, h4.cons _⟩
  | swap x y l =>
    rintro _ (_ | ⟨h1, _ | ⟨h2, h3⟩⟩)
    exact ⟨_, .cons h2 (.cons h1 h3), .swap _ _ _⟩
  | trans _ _ ih1 ih2 =>
    intro ks h
    obtain ⟨k1, h1, p1⟩ := ih1 ks h
    obtain ⟨k2, h2, p2⟩ := ih2 k1 h1
    exact ⟨k2, h2, p1.trans p2⟩

theorem groupTargets_alike (h : Matched SameTable s.tables u.tables) :
    ∀ {is js : List TableGroupItem}, List.Forall₂ SameItem is js → ∀ ks, GroupTargets s is ks → GroupTargets u js ks
  | _, _, .nil, _, .nil => .nil
  | _, _, .cons hij t, _, .cons h1 h2 => .cons (alike_groupTarget h hij h1) (groupTargets_alike h t _ h2)

/-! ## One table by itself -/

theorem Spec.SameTable.colNames {t T : TableBlock} (h : SameTable t T) : (colNames t).Perm (colNames T) :=
  h.cols.map fun _ _ h => h.name

theorem Spec.SameIndex.names {d e : IndexesDef} (h : SameIndex d e) : indexNames d = indexNames e := by
  have key : ∀ d : IndexesDef, indexNames d = (indexParts d).filterMap id := by
    intro d
    unfold indexNames indexParts
    rw [List.filterMap_map]
    congr 1
  rw [key, key, h.parts]

theorem Spec.SameIndex.length {d e : IndexesDef} (h : SameIndex d e) : d.cols.length = e.cols.length := by
  have := congrArg List.length h.parts
  simpa [indexParts] using this

theorem colKeys_some {c : TableColumn} {st : ColumnSettings} (h : c.settings = some st) :
    colKeys c = st.attributes.map (·.key.to_string) := by
  simp [colKeys, keysOf, h]

theorem Spec.SameColumn.settingsOk {c d : TableColumn} (h : SameColumn c d) (hc : ColumnSettingsOk c) : ColumnSettingsOk d := by
  intro st hst
  have hk := colKeys_some hst
  rw [← hk]
  cases hcs : c.settings with
  | none =>
    have h1 : colKeys c = [] := by simp [colKeys, hcs]
    have h2 := h.keys
    rw [h1] at h2
    have h3 := List.nil_perm.1 h2
    refine ⟨fun hp => ?_, by simp [h3]⟩
    obtain ⟨st', h4, -⟩ := h.pk.2 ⟨st, hst, hp⟩
    rw [hcs] at h4; cases h4
  | some st' =>
    obtain ⟨h1, h2⟩ := hc st' hcs
    rw [← colKeys_some hcs] at h2
    refine ⟨fun hp => ?_, ?_⟩
    · obtain ⟨st'', h4, h5⟩ := h.pk.2 ⟨st, hst, hp⟩
      rw [hcs] at h4; cases h4
      obtain ⟨h6, h7⟩ := h1 h5
      have h8 := h.nullable
      simp only [nullableOfCol, hcs, hst, Option.bind_some] at h8
      exact ⟨h8 ▸ h6, h.arrays ▸ h7⟩
    · rw [← h.keys.mem_iff, ← h.keys.mem_iff]
      exact h2

theorem Spec.SameIndex.ok {t T : TableBlock} (ht : SameTable t T) {d e : IndexesDef} (h : SameIndex d e) (hd : IndexOk t d) :
    IndexOk T e := by
  obtain ⟨h1, h2, h3⟩ := hd
  refine ⟨fun he => h1 ?_, ?_, fun st hst => ?_⟩
  · have := h.length
    rw [he] at this
    exact List.length_eq_zero_iff.1 this
  · intro n hn
    rw [← h.names] at hn
    exact ht.colNames.mem_iff.1 (h2 n hn)
  · have hp : (st.is_pk = true) ↔ IsPkIndex e := by simp [IsPkIndex, hst]
    have hu : (st.is_unique = true) ↔ IsUniqueIndex e := by simp [IsUniqueIndex, hst]
    have hT : st.type = e.settings.bind (·.type) := by simp [hst]
    cases hds : d.settings with
    | none => exact absurd (h.plain.1 hds) (by simp [hst])
    | some st' =>
      have hp' : (st'.is_pk = true) ↔ IsPkIndex d := by simp [IsPkIndex, hds]
      have hu' : (st'.is_unique = true) ↔ IsUniqueIndex d := by simp [IsUniqueIndex, hds]
      have hT' : st'.type = d.settings.bind (·.type) := by simp [hds]
      have := h3 st' hds
      rw [hp', hu', hT', h.pk, h.unique, h.type] at this
      rw [hp, hu, hT]
      exact this

theorem Spec.SameIndex.plainIndex {d e : IndexesDef} (h : SameIndex d e) : plainIndex d = plainIndex e := by
  unfold Spec.plainIndex
  have h1 := h.plain
  have h2 := h.type
  rw [h.names]
  cases hd : d.settings <;> cases he : e.settings <;> simp_all

theorem Spec.SameTable.ok {t T : TableBlock} (h : SameTable t T) (ht : TableOk t) : TableOk T := by
  obtain ⟨⟨p1, p2, p3⟩, h2, h3, h4, h5⟩ := ht
  refine ⟨⟨?_, ?_, ?_⟩, ?_, ?_, ?_, ?_⟩
  · rw [← (h.cols.filter (p := IsPkCol) fun _ _ h => h.pk).length]
    exact p1
  · intro c hc d hd hx
    obtain ⟨c', hc', sc⟩ := h.cols.mem' hc
    obtain ⟨d', hd', sd⟩ := forall₂_mem' h.indexes d hd
    exact p2 c' hc' d' hd' ⟨sc.pk.2 hx.1, sd.pk.2 hx.2⟩
  · refine forall₂_pairwise ?_ (forall₂_filter (p := IsPkIndex) (fun _ _ h => h.pk) h.indexes) p3
    intro a b a' b' h6 _ h7
    rw [← h6.names]; exact h7
  · intro c hc
    obtain ⟨c', hc', sc⟩ := h.cols.mem' hc
    exact sc.settingsOk (h2 c' hc')
  · intro d hd
    obtain ⟨d', hd', sd⟩ := forall₂_mem' h.indexes d hd
    exact sd.ok h (h3 d' hd')
  · unfold uniqueKeys at h4 ⊢
    rw [List.pairwise_append] at h4 ⊢
    obtain ⟨q1, q2, q3⟩ := h4
    have e : ((defsOf t).filter fun d => IsUniqueIndex d).map indexNames = ((defsOf T).filter fun d => IsUniqueIndex d).map indexNames :=
      forall₂_map (fun _ _ h => h.names) (forall₂_filter (p := IsUniqueIndex) (fun _ _ h => h.unique) h.indexes)
    have m : Matched SameColumn (t.cols.filter fun c => IsUniqueCol c) (T.cols.filter fun c => IsUniqueCol c) :=
      h.cols.filter (p := IsUniqueCol) fun _ _ h => h.unique
    rw [← e]
    refine ⟨?_, q2, ?_⟩
    · rw [List.pairwise_map] at q1 ⊢
      refine m.pairwise ?_ ?_ q1
      · intro a b h6 h7
        simp only [List.cons_subset, List.mem_singleton, List.nil_subset, and_true] at h6 h7
        exact h6 h7.symm
      · intro a b a' b' ha hb h6
        rw [← ha.name, ← hb.name]; exact h6
    · have pm : ((t.cols.filter fun c => IsUniqueCol c).map fun c => [c.name.to_string]).Perm
          ((T.cols.filter fun c => IsUniqueCol c).map fun c => [c.name.to_string]) := m.map fun _ _ h => by rw [h.name]
      intro x hx
      exact q3 x (pm.mem_iff.2 hx)
  · have e : plainIndexes t = plainIndexes T := forall₂_filterMap (fun _ _ h => h.plainIndex) h.indexes
    rw [← e]; exact h5

/-! ## Settings -/

theorem settings_iff (s : SchemaBlock) : (∀ as ∈ checkedSettings s, DistinctKeys as) ↔
    (∀ t ∈ s.tables, (tableKeys t).Nodup) ∧ (∀ t ∈ s.tables, ∀ c ∈ t.cols, (colKeys c).Nodup) ∧
    (∀ e ∈ s.enums, ∀ v ∈ e.values, (valueKeys v).Nodup) ∧ (∀ t ∈ s.tables, ∀ d ∈ defsOf t, (defKeys d).Nodup) ∧
    (∀ r ∈ s.refs, (refKeys r).Nodup) := by
  simp only [checkedSettings, structSettings, List.mem_append, List.mem_map]
  constructor
  · intro h
    refine ⟨fun t ht => ?_, fun t ht c hc => ?_, fun e he v hv => ?_, fun t ht d hd => ?_, fun r hr => ?_⟩
    · cases hst : t.settings with
      | none => simp [tableKeys, hst]
      | some st =>
        simp only [tableKeys, hst, Option.map_some, Option.getD_some]
        exact h _ (.inl (.inl (.inl (.inl ⟨st, List.mem_filterMap.2 ⟨t, ht, hst⟩, rfl⟩))))
    · cases hst : c.settings with
      | none => simp [colKeys, hst]
      | some st =>
        simp only [colKeys, hst, Option.map_some, Option.getD_some]
        exact h _ (.inl (.inl (.inl (.inr ⟨st, List.mem_filterMap.2 ⟨c, List.mem_flatMap.2 ⟨t, ht, hc⟩, hst⟩, rfl⟩))))
    · cases hst : v.settings with
      | none => simp [valueKeys, hst]
      | some st =>
        simp only [valueKeys, hst, Option.map_some, Option.getD_some]
        exact h _ (.inl (.inl (.inr ⟨st, List.mem_filterMap.2 ⟨v, List.mem_flatMap.2 ⟨e, he, hv⟩, hst⟩, rfl⟩)))
    · cases hst : d.settings with
      | none => simp [defKeys, hst]
      | some st =>
        simp only [defKeys, hst, Option.map_some, Option.getD_some]
        refine h _ (.inl (.inr ⟨st, List.mem_filterMap.2 ⟨d, ?_, hst⟩, rfl⟩))
        unfold defsOf at hd
        cases hi : t.indexes with
        | none => simp [hi] at hd
        | some ib =>
          simp only [hi, Option.map_some, Option.getD_some] at hd
          exact List.mem_flatMap.2 ⟨ib, List.mem_filterMap.2 ⟨t, ht, hi⟩, hd⟩
    · cases hst : r.settings with
      | none => simp [refKeys, hst]
      | some st =>
        simp only [refKeys, hst, Option.map_some, Option.getD_some]
        exact h _ (.inr ⟨st, List.mem_filterMap.2 ⟨r, hr, hst⟩, rfl⟩)
  · rintro ⟨h1, h2, h3, h4, h5⟩ as ha
    rcases ha with (((⟨x, hx, rfl⟩ | ⟨x, hx, rfl⟩) | ⟨x, hx, rfl⟩) | ⟨x, hx, rfl⟩) | ⟨x, hx, rfl⟩
    · obtain ⟨t, ht, hst⟩ := List.mem_filterMap.1 hx
      have := h1 t ht
      rwa [tableKeys, hst] at this
    · obtain ⟨c, hc, hst⟩ := List.mem_filterMap.1 hx
      obtain ⟨t, ht, hc⟩ := List.mem_flatMap.1 hc
      have := h2 t ht c hc
      rwa [colKeys, hst] at this
    · obtain ⟨v, hv, hst⟩ := List.mem_filterMap.1 hx
      obtain ⟨e, he, hv⟩ := List.mem_flatMap.1 hv
      have := h3 e he v hv
      rwa [valueKeys, hst] at this
    · obtain ⟨d, hd, hst⟩ := List.mem_filterMap.1 hx
      obtain ⟨ib, hib, hd⟩ := List.mem_flatMap.1 hd
      obtain ⟨t, ht, hi⟩ := List.mem_filterMap.1 hib
      have := h4 t ht d (by simpa [defsOf, hi] using hd)
      rwa [defKeys, hst] at this
    · obtain ⟨r, hr, hst⟩ := List.mem_filterMap.1 hx
      have := h5 r hr
      rwa [refKeys, hst] at this

/-! ## References -/

theorem unaliased_cols {s : SchemaBlock} {e e' : End} (h : Unaliased s e e') : e'.cols = e.cols := by
  rcases h with ⟨x, -, rfl⟩ | ⟨-, rfl⟩ <;> rfl

theorem Spec.SameType.symm {c d : TableColumn} (h : SameType c d) : SameType d c := by
  obtain ⟨h1, h2, n, m, ty, h3, h4, h5, h6⟩ := h
  exact ⟨h1.symm, h2.symm, m, n, ty, h4, h3, h6, h5⟩

theorem Spec.SameType.of {c d c' d' : TableColumn} (hc : SameColumn c c') (hd : SameColumn d d') (h : SameType c d) :
    SameType c' d' := by
  obtain ⟨h1, h2, n, m, ty, h3, h4, h5, h6⟩ := h
  exact ⟨hc.args ▸ hd.args ▸ h1, hc.arrays ▸ hd.arrays ▸ h2, n, m, ty, hc.typeName ▸ h3, hd.typeName ▸ h4, h5, h6⟩

theorem keyOk_turn {rel : Relation} {tl tr : TableBlock} {lc rc : List Str} (h : KeyOk rel tl tr lc rc) :
    KeyOk (turned rel) tr tl rc lc := by
  rcases lc with _ | ⟨l, _ | ⟨l', ls⟩⟩ <;> rcases rc with _ | ⟨r, _ | ⟨r', rs⟩⟩ <;> cases rel <;>
    simp only [KeyOk, turned] at h ⊢ <;> first | exact h | exact h.symm

theorem linkOk_turn {k : Link} (h : LinkOk s k) : LinkOk s k.turn := by
  obtain ⟨h1, h2, l, r, tl, tr, ul, ur, nl, nr, cl, cr, st, ko⟩ := h
  refine ⟨?_, h2.symm, r, l, tr, tl, ur, ul, nr, nl, cr, cl, ?_, keyOk_turn ko⟩
  · intro h3
    cases hr : k.rel <;> simp [Link.turn, turned, hr] at h3 h1
  · intro p hp c d hc hd
    refine (st p.swap ?_ d c hd hc).symm
    rw [← List.zip_swap]
    exact List.mem_map.2 ⟨p, hp, rfl⟩

theorem singleKey_alike {t T : TableBlock} (h : SameTable t T) {n : Str} (hk : SingleKey t n) : SingleKey T n := by
  obtain ⟨c, ⟨h1, h2⟩, h3⟩ := hk
  obtain ⟨d, hd, hs⟩ := h.cols.mem h1
  exact ⟨d, ⟨hd, hs.name.symm.trans h2⟩, h3.imp hs.pk.1 hs.unique.1⟩

theorem compositeKey_alike {t T : TableBlock} (h : SameTable t T) {xs ys : List Str} (hl : xs.length = ys.length)
    (hm : ∀ n, n ∈ ys ↔ n ∈ xs) (hk : CompositeKey t xs) : CompositeKey T ys := by
  obtain ⟨d, h1, h2, h3, h4⟩ := hk
  obtain ⟨e, he, hs⟩ := forall₂_mem h.indexes d h1
  exact ⟨e, he, h2.imp hs.pk.1 hs.unique.1, by rw [← hs.length, h3, hl], fun n => by rw [hm, h4, hs.names]⟩

theorem keyOk_alike {rel : Relation} {tl tr Tl Tr : TableBlock} (hl : SameTable tl Tl) (hr : SameTable tr Tr)
    {lc rc lc' rc' : List Str} (pl : lc.Perm lc') (pr : rc.Perm rc') (h : KeyOk rel tl tr lc rc) : KeyOk rel Tl Tr lc' rc' := by
  have kl : CompositeKey tl lc → CompositeKey Tl lc' := compositeKey_alike hl pl.length_eq fun n => pl.mem_iff.symm
  have kr : CompositeKey tr rc → CompositeKey Tr rc' := compositeKey_alike hr pr.length_eq fun n => pr.mem_iff.symm
  have n1 : ∀ {x : List Str}, ([] : List Str).Perm x → x = [] := fun h => List.nil_perm.1 h
  have n2 : ∀ {a : Str} {x : List Str}, [a].Perm x → x = [a] := fun h => List.singleton_perm.1 h |>.symm
  have n3 : ∀ {a b : Str} {y x : List Str}, (a :: b :: y).Perm x → ∃ a' b' y', x = a' :: b' :: y' := by
    intro a b y x h
    rcases x with _ | ⟨c, _ | ⟨d, z⟩⟩
    · exact absurd h.length_eq (by simp)
    · exact absurd h.length_eq (by simp)
    · exact ⟨c, d, z, rfl⟩
  have sl := @singleKey_alike _ _ hl
  have sr := @singleKey_alike _ _ hr
  rcases lc with _ | ⟨l, _ | ⟨l', ls⟩⟩ <;> rcases rc with _ | ⟨r, _ | ⟨r', rs⟩⟩ <;>
    (first | obtain rfl := n1 pl | obtain rfl := n2 pl | obtain ⟨_, _, _, rfl⟩ := n3 pl) <;>
    (first | obtain rfl := n1 pr | obtain rfl := n2 pr | obtain ⟨_, _, _, rfl⟩ := n3 pr) <;>
    cases rel <;> simp only [KeyOk] at h ⊢ <;>
    first
      | exact sl h
      | exact sr h
      | exact h.imp (fun h => sl h) (fun h => sr h)
      | exact kl h
      | exact kr h
      | exact h.imp kl kr

theorem samePairs_perm {a b : Link} (h : SamePairs a b) : a.lhs.cols.Perm b.lhs.cols ∧ a.rhs.cols.Perm b.rhs.cols := by
  rcases h with ⟨h1, h2⟩ | ⟨ps, qs, h1, h2, h3, h4, h5⟩
  · rw [h1, h2]; exact ⟨.refl _, .refl _⟩
  · rw [h2, h3, h4, h5]; exact ⟨h1.map _, h1.map _⟩

theorem samePairs_zip {a b : Link} (h : SamePairs a b) {p : Str × Str} (hp : p ∈ b.lhs.cols.zip b.rhs.cols) :
    p ∈ a.lhs.cols.zip a.rhs.cols := by
  rcases h with ⟨h1, h2⟩ | ⟨ps, qs, h1, h2, h3, h4, h5⟩
  · rw [h1, h2]; exact hp
  · have e : ∀ l : List (Str × Str), (l.map Prod.fst).zip (l.map Prod.snd) = l := fun l => by
      rw [List.zip_map']; simp
    rw [h4, h5, e] at hp
    rw [h2, h3, e]
    exact h1.mem_iff.2 hp

section
variable (h : Matched SameTable s.tables u.tables) (hn : (s.tables.filterMap aliasOf).Nodup)
include h hn

theorem sameName_unaliased {a b a' : End} (hs : SameName s a b) (ha : Unaliased s a a') :
    ∃ b', Unaliased u b b' ∧ a'.schema = b'.schema ∧ a'.table = b'.table := by
  obtain ⟨x, y, h1, h2, h3, h4⟩ := hs
  obtain rfl := Spec.Unaliased.unique hn ha h1
  exact ⟨y, alike_unaliased h h2, h3, h4⟩

theorem linkOk_aligned {a b : Link} (hab : Aligned s a b) (hk : LinkOk s a) : LinkOk u b := by
  obtain ⟨h1, h2, l, r, tl, tr, ul, ur, nl, nr, cl, cr, st, ko⟩ := hk
  obtain ⟨g1, g2, g3, g4⟩ := hab
  obtain ⟨l', ul', sl⟩ := sameName_unaliased h hn g2 ul
  obtain ⟨r', ur', sr⟩ := sameName_unaliased h hn g3 ur
  obtain ⟨Tl, nl', tl'⟩ := alike_names h sl nl
  obtain ⟨Tr, nr', tr'⟩ := alike_names h sr nr
  obtain ⟨pl, pr⟩ := samePairs_perm g4
  have zip := @samePairs_zip a b g4
  have kl := unaliased_cols ul
  have kr := unaliased_cols ur
  have kl' := unaliased_cols ul'
  have kr' := unaliased_cols ur'
  refine ⟨g1 ▸ h1, ?_, l', r', Tl, Tr, ul', ur', nl', nr', ?_, ?_, ?_, ?_⟩
  · rw [← pl.length_eq, ← pr.length_eq, h2]
  · intro n hm
    rw [kl', ← pl.mem_iff, ← kl] at hm
    exact tl'.colNames.mem_iff.1 (cl n hm)
  · intro n hm
    rw [kr', ← pr.mem_iff, ← kr] at hm
    exact tr'.colNames.mem_iff.1 (cr n hm)
  · intro p hp c d hc hd
    rw [kl', kr'] at hp
    have hp' := zip hp
    rw [← kl, ← kr] at hp'
    obtain ⟨c', hc', sc⟩ := tl'.cols.mem' hc.1
    obtain ⟨d', hd', sd⟩ := tr'.cols.mem' hd.1
    exact (st p hp' c' d' ⟨hc', sc.name.trans hc.2⟩ ⟨hd', sd.name.trans hd.2⟩).of sc sd
  · rw [kl', kr', ← g1]
    rw [kl, kr] at ko
    exact keyOk_alike tl' tr' pl pr ko

theorem linkOk_same {a b : Link} (hab : SameLink s a b) (hk : LinkOk s a) : LinkOk u b := by
  rcases hab with hab | hab
  · exact linkOk_aligned h hn hab hk
  · exact linkOk_aligned h hn hab (linkOk_turn hk)

end

/-! ### Competing references -/

/-- Two ends mean the same columns of the same table. -/
def EndsMeet (s : SchemaBlock) (x y : End) : Prop := ∃ x' y', Unaliased s x x' ∧ Unaliased s y y' ∧ SameEnd x' y'

theorem competes_iff {a b : Link} : Competes s a b ↔
    (∃ x y, fkSide a = some x ∧ fkSide b = some y ∧ EndsMeet s x y) ∨
    (a.rel = b.rel ∧ (a.rel = .one2one ∨ a.rel = .many2many) ∧
      ∀ x ∈ [a.lhs, a.rhs], ∃ y ∈ [b.lhs, b.rhs], EndsMeet s x y) := by
  unfold Competes EndsMeet
  constructor
  · rintro (⟨x, y, x', y', h1, h2, h3⟩ | h)
    · exact .inl ⟨x, y, h1, h2, x', y', h3⟩
    · exact .inr h
  · rintro (⟨x, y, h1, h2, x', y', h3⟩ | h)
    · exact .inl ⟨x, y, x', y', h1, h2, h3⟩
    · exact .inr h

theorem fkSide_turn (k : Link) : fkSide k.turn = fkSide k := by
  cases hr : k.rel <;> simp [fkSide, Link.turn, turned, hr]

theorem competes_turn_left {a b : Link} (h : Competes s a b) : Competes s a.turn b := by
  rw [competes_iff] at h ⊢
  rw [fkSide_turn]
  refine h.imp id ?_
  rintro ⟨h1, h2, h3⟩
  have hr : a.turn.rel = a.rel := by rcases h2 with h2 | h2 <;> simp [Link.turn, turned, h2]
  rw [hr]
  refine ⟨h1, h2, fun x hx => h3 x ?_⟩
  simp only [Link.turn, List.mem_cons, List.not_mem_nil, or_false] at hx ⊢
  exact hx.symm

theorem competes_turn_right {a b : Link} (h : Competes s a b) : Competes s a b.turn := by
  rw [competes_iff] at h ⊢
  rw [fkSide_turn]
  refine h.imp id ?_
  rintro ⟨h1, h2, h3⟩
  have hr : b.turn.rel = b.rel := by rw [h1] at h2; rcases h2 with h2 | h2 <;> simp [Link.turn, turned, h2]
  rw [hr]
  refine ⟨h1, h2, fun x hx => ?_⟩
  obtain ⟨y, hy, hm⟩ := h3 x hx
  refine ⟨y, ?_, hm⟩
  simp only [Link.turn, List.mem_cons, List.not_mem_nil, or_false] at hy ⊢
  exact hy.symm

/-- The same columns, by membership. -/
def SameSide (s : SchemaBlock) (x y : End) : Prop := SameName s x y ∧ ∀ n, n ∈ x.cols ↔ n ∈ y.cols

theorem SameSide.symm {x y : End} (h : SameSide s x y) : SameSide s y x := ⟨h.1.symm, fun n => (h.2 n).symm⟩

theorem aligned_sides {a b : Link} (h : Aligned s a b) : SameSide s a.lhs b.lhs ∧ SameSide s a.rhs b.rhs := by
  obtain ⟨p1, p2⟩ := samePairs_perm h.2.2.2
  exact ⟨⟨h.2.1, fun _ => p1.mem_iff⟩, ⟨h.2.2.1, fun _ => p2.mem_iff⟩⟩

section
variable (h : Matched SameTable s.tables u.tables) (hn : (s.tables.filterMap aliasOf).Nodup)
include h hn

theorem endsMeet_same {x y x' y' : End} (hx : SameSide s x x') (hy : SameSide s y y') (hm : EndsMeet s x y) :
    EndsMeet u x' y' := by
  obtain ⟨a, b, ha, hb, h1, h2, h3⟩ := hm
  obtain ⟨a', ha', s1, s2⟩ := sameName_unaliased h hn hx.1 ha
  obtain ⟨b', hb', t1, t2⟩ := sameName_unaliased h hn hy.1 hb
  refine ⟨a', b', ha', hb', ?_, ?_, fun n => ?_⟩
  · rw [← s1, ← t1, h1]
  · rw [← s2, ← t2, h2]
  · have := h3 n
    rw [unaliased_cols ha, unaliased_cols hb] at this
    rw [unaliased_cols ha', unaliased_cols hb', ← hx.2, ← hy.2, this]

theorem competes_aligned {a b a' b' : Link} (ha : Aligned s a a') (hb : Aligned s b b') (hc : Competes s a b) :
    Competes u a' b' := by
  obtain ⟨la, ra⟩ := aligned_sides ha
  obtain ⟨lb, rb⟩ := aligned_sides hb
  have fk : ∀ {k k' : Link} {x : End}, Aligned s k k' → fkSide k = some x → ∃ x', fkSide k' = some x' ∧ SameSide s x x' := by
    intro k k' x hk hx
    obtain ⟨hl, hr⟩ := aligned_sides hk
    unfold fkSide at hx ⊢
    rw [← hk.1]
    cases hrel : k.rel <;> simp only [hrel, Option.some.injEq, reduceCtorEq] at hx
    · exact ⟨_, rfl, hx ▸ hr⟩
    · exact ⟨_, rfl, hx ▸ hl⟩
  rw [competes_iff] at hc ⊢
  rcases hc with ⟨x, y, hx, hy, hm⟩ | ⟨h1, h2, h3⟩
  · obtain ⟨x', hx', sx⟩ := fk ha hx
    obtain ⟨y', hy', sy⟩ := fk hb hy
    exact .inl ⟨x', y', hx', hy', endsMeet_same h hn sx sy hm⟩
  · refine .inr ⟨?_, ha.1 ▸ h2, fun x' hx' => ?_⟩
    · rw [← ha.1, ← hb.1, h1]
    · simp only [List.mem_cons, List.not_mem_nil, or_false] at hx'
      have : ∃ x ∈ [a.lhs, a.rhs], SameSide s x x' := by
        rcases hx' with rfl | rfl
        · exact ⟨_, by simp, la⟩
        · exact ⟨_, by simp, ra⟩
      obtain ⟨x, hx, sx⟩ := this
      obtain ⟨y, hy, hm⟩ := h3 x hx
      simp only [List.mem_cons, List.not_mem_nil, or_false] at hy
      rcases hy with rfl | rfl
      · exact ⟨b'.lhs, by simp, endsMeet_same h hn sx lb hm⟩
      · exact ⟨b'.rhs, by simp, endsMeet_same h hn sx rb hm⟩

theorem competes_same {a b a' b' : Link} (ha : SameLink s a a') (hb : SameLink s b b') (hc : Competes s a b) :
    Competes u a' b' := by
  rcases ha with ha | ha <;> rcases hb with hb | hb
  · exact competes_aligned h hn ha hb hc
  · exact competes_aligned h hn ha hb (competes_turn_right hc)
  · exact competes_aligned h hn ha hb (competes_turn_left hc)
  · exact competes_aligned h hn ha hb (competes_turn_right (competes_turn_left hc))

end

/-! ## Schemas -/

theorem sameName_alike (h : Matched SameTable s.tables u.tables) {a b : End} (hs : SameName s a b) : SameName u a b := by
  obtain ⟨x, y, h1, h2, h3, h4⟩ := hs
  exact ⟨x, y, alike_unaliased h h1, alike_unaliased h h2, h3, h4⟩

theorem sameLink_alike (h : Matched SameTable s.tables u.tables) {a b : Link} (hs : SameLink s a b) : SameLink u a b := by
  rcases hs with hs | hs
  · exact .inl ⟨hs.1, sameName_alike h hs.2.1, sameName_alike h hs.2.2.1, hs.2.2.2⟩
  · exact .inr ⟨hs.1, sameName_alike h hs.2.1, sameName_alike h hs.2.2.1, hs.2.2.2⟩

theorem forall₂_imp {α : Type} {R Q : α → α → Prop} (hi : ∀ a b, R a b → Q a b) :
    ∀ {l l' : List α}, List.Forall₂ R l l' → List.Forall₂ Q l l'
  | _, _, .nil => .nil
  | _, _, .cons h t => .cons (hi _ _ h) (forall₂_imp hi t)

theorem Spec.Matched.imp {α : Type} {R Q : α → α → Prop} {l l' : List α} (h : Matched R l l') (hi : ∀ a b, R a b → Q a b) :
    Matched Q l l' := by
  obtain ⟨m, h1, h2⟩ := h
  exact ⟨m, h1, forall₂_imp hi h2⟩

theorem Spec.Alike.symm (h : Alike s u) : Alike u s where
  projects := h.projects.symm fun _ _ => .symm
  tables := h.tables.symm fun _ _ => .symm
  enums := h.enums.symm fun _ _ => .symm
  groups := h.groups.symm fun _ _ => .symm
  links := (h.links.symm fun _ _ => .symm).imp fun _ _ => sameLink_alike h.tables
  refKeys := h.refKeys.symm fun _ _ => .symm

theorem Spec.Alike.rfl : Alike s s where
  projects := .of_perm (fun _ => .rfl) (.refl _)
  tables := .of_perm (fun _ => .rfl) (.refl _)
  enums := .of_perm (fun _ => .rfl) (.refl _)
  groups := .of_perm (fun _ => .rfl) (.refl _)
  links := .of_perm (fun _ => .rfl) (.refl _)
  refKeys := .of_perm (fun _ => .refl _) (.refl _)

theorem columnOk_alike (h : Matched SameEnum s.enums u.enums) {c d : TableColumn} (hs : SameColumn c d) (hc : ColumnOk s c) :
    ColumnOk u d := by
  obtain ⟨n, ty, h1, h2, h3, h4⟩ := hc
  refine ⟨n, ty, hs.typeName ▸ h1, h2, fun hf => hs.args ▸ h3 hf, fun v hv => ?_⟩
  rw [← hs.default] at hv
  obtain ⟨h5, h6⟩ := h4 v hv
  refine ⟨hs.args ▸ hs.nullable ▸ h5, fun hf k hk => ?_⟩
  obtain ⟨e, he, hek, hm⟩ := h6 hf k hk
  obtain ⟨E, hE, sk, sv⟩ := h.mem he
  exact ⟨E, hE, sk.symm.trans hek, (sv.map fun _ _ h => h.1).mem_iff.1 hm⟩

theorem Spec.Alike.valid (h : Alike s u) (hv : Valid s) : Valid u where
  project := by
    obtain ⟨p, hp, hn⟩ := hv.project
    obtain ⟨m, h1, h2⟩ := h.projects
    rw [hp] at h1
    obtain rfl := List.singleton_perm.1 h1
    generalize hq : u.projects = q at h2
    cases h2 with
    | cons h3 h4 => cases h4; exact ⟨_, hq, (List.Perm.nodup_iff h3).1 hn⟩
  settings := by
    rw [settings_iff]
    obtain ⟨h1, h2, h3, h4, h5⟩ := (settings_iff s).1 hv.settings
    refine ⟨fun t ht => ?_, fun t ht c hc => ?_, fun e he v hvv => ?_, fun t ht d hd => ?_, fun r hr => ?_⟩
    · obtain ⟨t', ht', st⟩ := h.tables.mem' ht
      exact st.keys.nodup_iff.1 (h1 t' ht')
    · obtain ⟨t', ht', st⟩ := h.tables.mem' ht
      obtain ⟨c', hc', sc⟩ := st.cols.mem' hc
      exact sc.keys.nodup_iff.1 (h2 t' ht' c' hc')
    · obtain ⟨e', he', se⟩ := h.enums.mem' he
      obtain ⟨v', hv', sv⟩ := se.2.mem' hvv
      exact sv.2.nodup_iff.1 (h3 e' he' v' hv')
    · obtain ⟨t', ht', st⟩ := h.tables.mem' ht
      obtain ⟨d', hd', sd⟩ := forall₂_mem' st.indexes d hd
      exact sd.keys.nodup_iff.1 (h4 t' ht' d' hd')
    · by_cases hk : Spec.refKeys r = []
      · rw [hk]; exact List.nodup_nil
      · obtain ⟨k, hk', pk⟩ := h.refKeys.mem' (b := Spec.refKeys r)
          (List.mem_filter.2 ⟨List.mem_map.2 ⟨r, hr, Eq.refl _⟩, by simpa using hk⟩)
        obtain ⟨r', hr', rfl⟩ := List.mem_map.1 (List.mem_filter.1 hk').1
        exact pk.nodup_iff.1 (h5 r' hr')
  tableNames := by
    obtain ⟨h1, h2, h3⟩ := hv.tableNames
    refine ⟨(h.tables.map fun _ _ h => h.key).nodup_iff.1 h1, (h.tables.filterMap fun _ _ h => h.alias).nodup_iff.1 h2, ?_⟩
    intro t ht
    obtain ⟨t', ht', st⟩ := h.tables.mem' ht
    exact st.colNames.nodup_iff.1 (h3 t' ht')
  enumNames := by
    obtain ⟨h1, h2⟩ := hv.enumNames
    refine ⟨(h.enums.map fun _ _ h => h.1).nodup_iff.1 h1, fun e he => ?_⟩
    obtain ⟨e', he', se⟩ := h.enums.mem' he
    exact (se.2.map fun _ _ h => h.1).nodup_iff.1 (h2 e' he')
  groups := by
    obtain ⟨h1, h2⟩ := hv.groups
    refine ⟨(h.groups.map fun _ _ h => h.1).nodup_iff.1 h1, fun g hg => ?_⟩
    obtain ⟨g', hg', sg⟩ := h.groups.mem' hg
    obtain ⟨ks, h3, h4⟩ := h2 g' hg'
    obtain ⟨m, h5, h6⟩ := sg.2
    obtain ⟨ks', h7, h8⟩ := groupTargets_perm h5 ks h3
    exact ⟨ks', groupTargets_alike h.tables h6 ks' h7, h8.nodup_iff.1 h4⟩
  tables := by
    intro t ht
    obtain ⟨t', ht', st⟩ := h.tables.mem' ht
    exact st.ok (hv.tables t' ht')
  columns := by
    intro c hc
    obtain ⟨t, ht, hc⟩ := List.mem_flatMap.1 hc
    obtain ⟨t', ht', st⟩ := h.tables.mem' ht
    obtain ⟨c', hc', sc⟩ := st.cols.mem' hc
    exact columnOk_alike h.enums sc (hv.columns c' (List.mem_flatMap.2 ⟨t', ht', hc'⟩))
  refs := by
    have hn := hv.tableNames.2.1
    have hn' : (u.tables.filterMap aliasOf).Nodup := (h.tables.filterMap fun _ _ h => h.alias).nodup_iff.1 hn
    have hsym := h.symm
    refine ⟨fun k hk => ?_, ?_⟩
    · obtain ⟨k', hk', sk⟩ := h.links.mem' hk
      exact linkOk_same h.tables hn sk (hv.refs.1 k' hk')
    · have hp : (Spec.links s).Pairwise fun a b => ¬ Competes u a b ∧ ¬ Competes u b a :=
        hv.refs.2.imp fun {a b} hab =>
          ⟨fun hc => hab.1 (competes_same hsym.tables hn' .rfl .rfl hc), fun hc => hab.2 (competes_same hsym.tables hn' .rfl .rfl hc)⟩
      refine h.links.pairwise (fun h => h.symm) ?_ hp
      intro a b a' b' ha hb hab
      have ha' : SameLink u a' a := (sameLink_alike h.tables ha).symm
      have hb' : SameLink u b' b := (sameLink_alike h.tables hb).symm
      have hu : Matched SameTable u.tables u.tables := .of_perm (fun _ => .rfl) (.refl _)
      exact ⟨fun hc => hab.1 (competes_same hu hn' ha' hb' hc), fun hc => hab.2 (competes_same hu hn' hb' ha' hc)⟩

theorem valid_alike (h : Alike s u) : Valid s ↔ Valid u := ⟨h.valid, h.symm.valid⟩

end Dbml

import Verif.Proofs.TableChecks

/-!
# Typing the columns
-/

namespace Dbml
open Spec

/-! ## Splitting at dots -/

theorem splitDot_ne_nil (s : Str) : splitDot s ≠ [] := by
  cases s with
  | nil => simp [splitDot]
  | cons c cs =>
    unfold splitDot
    split
    · simp
    · split <;> simp

theorem splitDot_nodot {s : Str} (h : '.' ∉ s) : splitDot s = [s] := by
  induction s with
  | nil => rfl
  | cons c cs ih =>
    simp only [List.mem_cons, not_or] at h
    unfold splitDot
    rw [if_neg (Ne.symm h.1), ih h.2]

theorem splitDot_append {a b : Str} (h : '.' ∉ a) : splitDot (a ++ '.' :: b) = a :: splitDot b := by
  induction a with
  | nil => simp [splitDot]
  | cons c cs ih =>
    simp only [List.mem_cons, not_or] at h
    rw [List.cons_append, splitDot, if_neg (Ne.symm h.1), ih h.2]

theorem dot_split {s : Str} (h : '.' ∈ s) : ∃ a b, s = a ++ '.' :: b ∧ '.' ∉ a := by
  induction s with
  | nil => simp at h
  | cons c cs ih =>
    by_cases hc : c = '.'
    · exact ⟨[], cs, by simp [hc], by simp⟩
    · rcases List.mem_cons.1 h with h | h
      · exact absurd h.symm hc
      · obtain ⟨a, b, h1, h2⟩ := ih h
        exact ⟨c :: a, b, by simp [h1], by simp [h2, Ne.symm hc]⟩

/-- The parts of a dotted name. -/
theorem splitDot_cases (s : Str) :
    ('.' ∉ s ∧ splitDot s = [s]) ∨
    (∃ a b, s = a ++ '.' :: b ∧ '.' ∉ a ∧ '.' ∉ b ∧ splitDot s = [a, b]) ∨
    (∃ a b c r, splitDot s = a :: b :: c :: r ∧ ∃ x y, s = a ++ '.' :: (x ++ '.' :: y)) := by
  by_cases h : '.' ∈ s
  · obtain ⟨a, b, rfl, h2⟩ := dot_split h
    rw [splitDot_append h2]
    by_cases h3 : '.' ∈ b
    · obtain ⟨c, d, rfl, h4⟩ := dot_split h3
      rw [splitDot_append h4]
      refine Or.inr (Or.inr ?_)
      cases hd : splitDot d with
      | nil => exact absurd hd (splitDot_ne_nil d)
      | cons e r => exact ⟨a, c, e, r, rfl, c, d, rfl⟩
    · rw [splitDot_nodot h3]
      exact Or.inr (Or.inl ⟨a, b, rfl, h2, h3, rfl⟩)
  · exact Or.inl ⟨h, splitDot_nodot h⟩

theorem split_unique {a b a' b' : Str} (h : a ++ '.' :: b = a' ++ '.' :: b') (h1 : '.' ∉ a) (h2 : '.' ∉ a') :
    a = a' ∧ b = b' := by
  have := splitDot_append (b := b) h1
  rw [h, splitDot_append h2] at this
  have ha : a' = a := (List.cons.inj this).1
  subst ha
  exact ⟨rfl, by simpa using h⟩

theorem Spec.EnumRef.unique {n : Str} {k k' : Str × Str} (h : EnumRef n k) (h' : EnumRef n k') : k = k' := by
  rcases h with ⟨h1, rfl⟩ | ⟨a, b, rfl, h1, h2, rfl⟩ <;>
    rcases h' with ⟨h3, rfl⟩ | ⟨a', b', h3, h4, h5, rfl⟩
  · rfl
  · exact absurd (h3 ▸ (by simp : '.' ∈ a' ++ '.' :: b')) h1
  · exact absurd (by simp : '.' ∈ a ++ '.' :: b) h3
  · obtain ⟨rfl, rfl⟩ := split_unique h3 h1 h4; rfl

theorem Spec.Resolves.unique {n : Str} {t t' : ColumnTypeName} (h : Resolves n t) (h' : Resolves n t') : t = t' := by
  rcases h with h | ⟨h, k, h1, rfl⟩ <;> rcases h' with h' | ⟨h', k', h1', rfl⟩
  · rw [h] at h'; exact Option.some.inj h'
  · rw [h] at h'; cases h'
  · rw [h] at h'; cases h'
  · rw [EnumRef.unique h1 h1']

section
variable {s : SchemaBlock} {input : Str}

/-- Where the typing of a column panics (as opposed to reporting an error). -/
def ColPanic (c : TableColumn) (k : PanicSite) : Prop :=
  (k = .argsIndex ∧ ColumnPanics c) ∨ (k = .typeNameNotRaw ∧ ∀ n, ¬ HasRaw c n) ∨
  (k = .defaultValueMissing ∧ defaultOf c ≠ none ∧ ∀ sp, ¬ DefaultAt c sp)

theorem typeArity_eq (t : ColumnTypeName) : typeArity t = arity t := by cases t <;> rfl

theorem checkTypeArgs_out {c n ty} (hc : c ∈ columns s) (hr : HasRaw c n)
    (ht : ColumnTypeName.fromStr n = some ty) {K} :
    Outcome input (fun _ => ArgsOk ty c.type.args) (ColumnDefect s c) K (checkTypeArgs n ty c.type input) := by
  unfold checkTypeArgs
  rw [typeArity_eq]
  refine Outcome.ite (fun h => Or.inl (by simpa using h)) fun h => ?_
  have h : c.type.args ≠ [] := by simpa using h
  refine Outcome.ite (fun h1 => Outcome.throw (.typeArgs hr ht h h1)) fun h1 => ?_
  refine Outcome.ite (fun h2 => ?_) fun h2 => ?_
  · refine Or.inr ⟨Decidable.not_not.1 h1, ?_⟩
    intro v hv
    rw [List.all_eq_true] at h2
    have := h2 v hv
    cases v <;> simp [IsInt] at this ⊢
  · rw [List.all_eq_true, Classical.not_forall] at h2
    obtain ⟨v, h2⟩ := h2
    rw [Classical.not_imp] at h2
    refine Outcome.throw (.typeArg hr ht h2.1 ?_)
    rintro ⟨m, rfl⟩
    exact h2.2 rfl

theorem enumParts_out {c n} (hc : c ∈ columns s) (hr : HasRaw c n) (ht : ColumnTypeName.fromStr n = none) {K} :
    Outcome input (fun p => EnumRef n (p.1.getD k!"public", p.2)) (ColumnDefect s c) K
      (enumParts n c.type.span_range input) := by
  unfold enumParts
  rcases splitDot_cases n with ⟨h, h1⟩ | ⟨a, b, rfl, h1, h2, h3⟩ | ⟨a, b, e, r, h1, x, y, h2⟩
  · rw [h1]; exact Or.inl ⟨h, rfl⟩
  · rw [h3]; exact Or.inr ⟨a, b, rfl, h1, h2, rfl⟩
  · rw [h1]
    refine Outcome.throw (.enumSyntax hr ht ?_)
    rintro k (⟨h3, -⟩ | ⟨a', b', h3, h4, h5, -⟩)
    · apply h3; simp [h2]
    · have := h3 ▸ h1
      rw [splitDot_append h4, splitDot_nodot h5] at this
      simp at this

theorem defaultSpan_out {c : TableColumn} {st v} (hst : c.settings = some st) (hd : st.default = some v) :
    Outcome input (DefaultAt c) (ColumnDefect s c) (ColPanic c) (defaultSpan st.attributes) := by
  have h0 : defaultOf c ≠ none := by simp [defaultOf, hst, hd]
  unfold defaultSpan
  split
  · rename_i a ha
    split
    · rename_i l hl
      exact ⟨st, a, l, hst, ha, hl, rfl⟩
    · rename_i hl
      refine Outcome.panic (Or.inr (Or.inr ⟨rfl, h0, ?_⟩))
      rintro sp ⟨st', a', l, h1, h2, h3, h4⟩
      rw [hst] at h1; cases h1
      rw [ha] at h2; cases h2
      rw [hl] at h3; cases h3
  · rename_i ha
    refine Outcome.panic (Or.inr (Or.inr ⟨rfl, h0, ?_⟩))
    rintro sp ⟨st', a', l, h1, h2, h3, h4⟩
    rw [hst] at h1; cases h1
    rw [ha] at h2; cases h2

theorem checkEnumDefault_out {ix} (hk : Indexed s ix) {c n} {p : Option Str × Str} {v sp}
    (hc : c ∈ columns s) (hr : HasRaw c n)
    (ht : ColumnTypeName.fromStr n = none) (he : EnumRef n (p.1.getD k!"public", p.2))
    (hv : defaultOf c = some v) (hsp : DefaultAt c sp) {K} :
    Outcome input (fun _ => HasEnumValue s (p.1.getD k!"public", p.2) v.toStr) (ColumnDefect s c) K
      (checkEnumDefault ix p.1 p.2 v c.type.span_range sp input) := by
  obtain ⟨p1, p2⟩ := p
  simp only at he ⊢
  have hd : defaultOf c ≠ none := by simp [hv]
  unfold checkEnumDefault Indexer.lookupEnumValues
  rw [show DEFAULT_SCHEMA = k!"public" from rfl]
  cases h1 : mapGet ix.schema_map (p1.getD k!"public") with
  | none =>
    refine Outcome.throw (.enumSchema hr ht he hd ?_)
    intro h2
    have := (hk.schema _).2 h2
    simp [h1] at this
  | some b =>
    have hsd : SchemaDeclared s (p1.getD k!"public") := (hk.schema _).1 (by simp [h1])
    simp only
    cases h2 : mapGet b.enum_map p2 with
    | none =>
      refine Outcome.throw (.enumMissing hr ht he hd hsd ?_)
      exact hk.enum_none _ (by simp [Indexer.enum?, h1, h2])
    | some vs =>
      obtain ⟨e, hem, hek, hev⟩ := hk.enum_some (p1.getD k!"public", p2) vs (by simp [Indexer.enum?, h1, h2])
      simp only [List.map_cons, List.map_nil, List.any_cons, List.any_nil, Bool.or_false, decide_eq_true_eq]
      refine Outcome.ite (fun h3 => ?_) fun h3 => ?_
      · rw [List.contains_eq_mem, decide_eq_false_iff_not, hev] at h3
        exact Outcome.throw (.enumDefault hr ht he hv hem hek h3 hsp)
      · rw [List.contains_eq_mem, decide_eq_false_iff_not, Decidable.not_not, hev] at h3
        exact ⟨e, hem, hek, h3⟩

/-- The first half of `ColumnOk`. -/
def TypeOk (s : SchemaBlock) (c : TableColumn) (ty : ColumnTypeName) : Prop :=
  ∃ n, HasRaw c n ∧ Resolves n ty ∧
    (ColumnTypeName.fromStr n = some ty → ArgsOk ty c.type.args) ∧
    (ColumnTypeName.fromStr n = none → ∀ k v, EnumRef n k → defaultOf c = some v → HasEnumValue s k v.toStr)

theorem resolveType_out {ix} (hk : Indexed s ix) {c} (hc : c ∈ columns s) :
    Outcome input (TypeOk s c) (ColumnDefect s c) (ColPanic c) (resolveType ix c input) := by
  unfold resolveType
  split
  · rename_i n hr
    split
    · rename_i ty hty
      refine (checkTypeArgs_out hc hr hty).bind fun _ ha => ?_
      exact ⟨n, hr, Or.inl hty, fun _ => ha, by simp [hty]⟩
    · rename_i hty
      refine (enumParts_out hc hr hty).bind fun p hp => ?_
      have hres : Resolves n (.enum p.2) := Or.inr ⟨hty, _, hp, rfl⟩
      split
      · rename_i as v st' hst
        refine (defaultSpan_out hst rfl).bind fun sp hsp => ?_
        have hv : defaultOf c = some v := by simp [defaultOf, hst]
        refine (checkEnumDefault_out hk hc hr hty hp hv hsp).bind fun _ hev => ?_
        refine ⟨n, hr, hres, by simp [hty], fun _ k v' hkk hv' => ?_⟩
        rw [hv] at hv'; cases hv'
        rw [EnumRef.unique hkk hp]
        exact hev
      · rename_i hst
        refine ⟨n, hr, hres, by simp [hty], fun _ k v' hkk hv' => ?_⟩
        exfalso
        unfold defaultOf at hv'
        cases hs : c.settings with
        | none => simp [hs] at hv'
        | some st =>
          simp only [hs, Option.bind_some] at hv'
          obtain ⟨a1, a2, a3, a4, a5, a6, a7, a8, a9⟩ := st
          simp only at hv'
          subst hv'
          exact hst _ _ _ _ _ _ _ _ _ hs
  · rename_i h
    exact Outcome.panic (Or.inr (Or.inl ⟨rfl, fun n hn => h n hn⟩))

theorem checkDefault_out {c : TableColumn} {st ty v sp} (hc : c ∈ columns s) (hty : TypeOk s c ty)
    (hst : c.settings = some st) (hv : st.default = some v) (hsp : DefaultAt c sp) :
    Outcome input (fun _ => DefaultFits ty c.type.args (nullableOfCol c) v) (ColumnDefect s c) (ColPanic c)
      (checkDefault c st ty v sp input) := by
  obtain ⟨n, hr, hres, hargs, -⟩ := hty
  have hdef : defaultOf c = some v := by simp [defaultOf, hst, hv]
  have hnull : nullableOfCol c = st.nullable := by simp [nullableOfCol, hst]
  -- string defaults of sized types
  have hstr : ∀ w, v = .string w → ∀ p : Int → Bool,
      (ty = .bit ∨ ty = .char ∨ ty = .varbit ∨ ty = .varchar) →
      (∀ m, c.type.args = [.integer m] → (StringFits ty c.type.args (blen w) ↔ p m = false)) →
      Outcome input (fun _ => StringFits ty c.type.args (blen w)) (ColumnDefect s c) (ColPanic c)
        (do if ← firstArgMatches c.type.args p then throwErr (.invalidDefaultValue w c.type.raw) sp input
            else return ()) := by
    intro w hw p hcase hp
    subst hw
    have hb : ColumnTypeName.fromStr n = some ty := by
      rcases hres with h | ⟨-, k, -, rfl⟩
      · exact h
      · simp at hcase
    have ha := hargs hb
    rcases ha with ha | ⟨ha, hi⟩
    · rw [ha]
      exact Outcome.panic (Or.inl ⟨rfl, n, ty, w, hr, hb, hcase, ha, hdef⟩)
    · have ha1 : c.type.args.length = 1 := by
        rw [ha]; rcases hcase with rfl | rfl | rfl | rfl <;> rfl
      obtain ⟨x, hx⟩ := List.length_eq_one_iff.1 ha1
      obtain ⟨m, rfl⟩ := hi x (by simp [hx])
      have hpm := hp m hx
      rw [hx]
      simp only [firstArgMatches]
      rw [Rs.ok_bind']
      refine Outcome.ite (fun h => ?_) fun h => ?_
      · refine Outcome.throw (.stringDefault hr hres hdef ?_ (by simp [hx]) hsp)
        rw [hpm, h]; simp
      · rw [← hx]
        exact Outcome.pure (hpm.2 (by simpa using h))
  unfold checkDefault
  cases v with
  | string w =>
    simp only [DefaultFits]
    split
    · exact hstr w rfl _ (Or.inl rfl) fun m hm => by simp [StringFits, hm]
    · exact hstr w rfl _ (Or.inr (Or.inl rfl)) fun m hm => by simp [StringFits, hm]
    · exact hstr w rfl _ (Or.inr (Or.inr (Or.inl rfl))) fun m hm => by simp [StringFits, hm]
    · exact hstr w rfl _ (Or.inr (Or.inr (Or.inr rfl))) fun m hm => by simp [StringFits, hm]
    · rename_i h1 h2 h3 h4
      show StringFits _ _ _
      unfold StringFits
      cases ty <;> simp_all
  | integer m =>
    simp only [DefaultFits]
    split
    · refine Outcome.ite (fun h => Outcome.throw (.intDefault hr hres hdef ?_ hsp)) fun h => ?_
      · simp only [IntFits, i16Max, i16Min] at h ⊢; omega
      · refine Outcome.ok ?_
        simp only [IntFits, i16Max, i16Min] at h ⊢; omega
    · refine Outcome.ite (fun h => Outcome.throw (.intDefault hr hres hdef ?_ hsp)) fun h => ?_
      · simp only [IntFits, i32Max, i32Min] at h ⊢; omega
      · refine Outcome.ok ?_
        simp only [IntFits, i32Max, i32Min] at h ⊢; omega
    · refine Outcome.ite (fun h => Outcome.throw (.intDefault hr hres hdef ?_ hsp)) fun h => ?_
      · simp only [IntFits, i64MaxI, i64MinI] at h ⊢; omega
      · refine Outcome.ok ?_
        simp only [IntFits, i64MaxI, i64MinI] at h ⊢; omega
    · show IntFits _ _
      unfold IntFits
      cases ty <;> simp_all
  | bool b =>
    exact Outcome.ite (fun h => h) fun h => Outcome.throw (.boolDefault hr hres hdef h hsp)
  | null =>
    refine Outcome.ite (fun h => ?_) fun h => ?_
    · show nullableOfCol c = _
      rw [hnull]; exact h
    · exact Outcome.throw (.nullDefault hdef (by rw [hnull]; exact h) hsp)
  | enum _ => trivial
  | decimal _ => trivial
  | hexColor _ => trivial
  | expr _ => trivial

/-- The column with its resolved type. -/
def Typed (c c' : TableColumn) : Prop :=
  ∃ n ty, HasRaw c n ∧ Resolves n ty ∧ c' = { c with type := { c.type with type_name := ty } }

theorem typeColumn_out {ix} (hk : Indexed s ix) {c} (hc : c ∈ columns s) :
    Outcome input (fun c' => ColumnOk s c ∧ Typed c c' ∧ DefaultPlaced c) (ColumnDefect s c) (ColPanic c) (typeColumn ix input c) := by
  unfold typeColumn
  refine (resolveType_out hk hc).bind fun ty hty => ?_
  refine Outcome.bind (P := fun _ => ∀ v, defaultOf c = some v →
    DefaultFits ty c.type.args (nullableOfCol c) v ∧ DefaultPlaced c) ?_ fun _ hd => ?_
  · unfold checkColDefault
    split
    · rename_i st hst
      split
      · rename_i v hv
        refine (defaultSpan_out hst hv).bind fun sp hsp => ?_
        refine (checkDefault_out hc hty hst hv hsp).mono ?_ (fun _ _ h => h) fun _ h => h
        intro _ hf w hw
        simp only [defaultOf, hst, Option.bind_some, hv, Option.some.injEq] at hw
        subst hw; exact ⟨hf, fun _ => ⟨sp, hsp⟩⟩
      · rename_i hv
        intro w hw
        simp [defaultOf, hst, hv] at hw
    · rename_i hst
      intro w hw
      simp [defaultOf, hst] at hw
  · obtain ⟨n, hr, hres, hargs, hen⟩ := hty
    refine ⟨⟨n, ty, hr, hres, hargs, fun v hv => ⟨(hd v hv).1, fun hn k hkk => hen hn k v hkk hv⟩⟩, ⟨n, ty, hr, hres, rfl⟩, ?_⟩
    intro h0
    obtain ⟨v, hv⟩ := Option.ne_none_iff_exists'.1 h0
    exact (hd v hv).2 h0

end
end Dbml

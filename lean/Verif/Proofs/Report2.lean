import Verif.Proofs.Report1
import Verif.Proofs.Parsed

/-!
# The whole checklist is what the analyzer runs through
-/

namespace Dbml
open Spec

section
variable {s : SchemaBlock} {input : Str}

/-! ## Columns -/

theorem defaultAt_place {c sp} (h : DefaultAt c sp) : defaultPlace c = sp := by
  obtain ⟨st, a, l, h1, h2, h3, rfl⟩ := h
  simp [defaultPlace, h1, h2, h3]

theorem defaultSpan_place {c : TableColumn} {st} (hst : c.settings = some st) {sp} (h : DefaultAt c sp) :
    defaultSpan st.attributes = .ok (defaultPlace c) := by
  rw [defaultAt_place h]
  obtain ⟨st', a, l, h1, h2, h3, rfl⟩ := h
  rw [hst] at h1; cases h1
  simp [defaultSpan, h2, h3]

theorem checkTypeArgs_tells {c : TableColumn} {n ty} :
    Tells input
      [.err (c.type.args ≠ [] ∧ c.type.args.length ≠ arity ty) (.invalidDataTypeArguments n (arity ty)) c.type.span_range,
       .err (∃ v ∈ c.type.args, ¬ IsInt v) .invalidArgumentValue c.type.span_range]
      (checkTypeArgs n ty c.type input) := by
  unfold checkTypeArgs
  rw [typeArity_eq]
  by_cases h : c.type.args = []
  · rw [if_pos (by simp [h])]
    exact .skip (fun h' => h'.1 h) (.skip (by simp [h]) (.ok .nil))
  · rw [if_neg (by simpa using h)]
    refine Tells.ite (by simp [h]) fun _ => ?_
    split
    · rename_i h2
      refine .skip ?_ (.ok .nil)
      rintro ⟨v, hv, hn⟩
      have := List.all_eq_true.1 h2 v hv
      cases v <;> simp [IsInt] at this hn
    · rename_i h2
      rw [List.all_eq_true, Classical.not_forall] at h2
      obtain ⟨v, h2⟩ := h2
      rw [Classical.not_imp] at h2
      refine .throw ⟨v, h2.1, ?_⟩
      rintro ⟨m, rfl⟩
      exact h2.2 rfl

theorem enumParts_tells {n : Str} {sp : Span} :
    Tells input [.err (∀ k, ¬ EnumRef n k) .invalidEnum sp] (enumParts n sp input) := by
  unfold enumParts
  rcases splitDot_cases n with ⟨h, h1⟩ | ⟨a, b, rfl, h1, h2, h3⟩ | ⟨a, b, e, r, h1, x, y, h2⟩
  · rw [h1]
    exact .skip (fun hb => hb _ (.inl ⟨h, rfl⟩)) (.ok .nil)
  · rw [h3]
    exact .skip (fun hb => hb _ (.inr ⟨a, b, rfl, h1, h2, rfl⟩)) (.ok .nil)
  · rw [h1]
    refine .throw ?_
    rintro k (⟨h3, -⟩ | ⟨a', b', h3, h4, h5, -⟩)
    · apply h3; simp [h2]
    · have := h3 ▸ h1
      rw [splitDot_append h4, splitDot_nodot h5] at this
      simp at this

theorem checkEnumDefault_tells {ix} (hk : Indexed s ix) {n : Str} {p : Option Str × Str} {v : Value} {tsp sp : Span}
    (he : EnumRef n (p.1.getD k!"public", p.2)) (hen : (s.enums.map enumKey).Nodup) :
    Tells input
      [.err (∀ k, EnumRef n k → ¬ SchemaDeclared s k.1) .schemaNotFound tsp,
       .err (∀ k, EnumRef n k → ∀ e ∈ s.enums, enumKey e ≠ k) .enumNotFound tsp,
       .err (∀ k, EnumRef n k → ¬ HasEnumValue s k v.toStr) .enumValueNotFound sp]
      (checkEnumDefault ix p.1 p.2 v tsp sp input) := by
  obtain ⟨p1, p2⟩ := p
  simp only at he ⊢
  have all : ∀ Q : Str × Str → Prop, (∀ k, EnumRef n k → Q k) ↔ Q (p1.getD k!"public", p2) := fun Q =>
    ⟨fun h => h _ he, fun h k hk' => by rw [EnumRef.unique hk' he]; exact h⟩
  simp only [all]
  unfold checkEnumDefault Indexer.lookupEnumValues
  rw [show DEFAULT_SCHEMA = k!"public" from rfl]
  cases h1 : mapGet ix.schema_map (p1.getD k!"public") with
  | none =>
    refine .throw ?_
    intro h2
    have := (hk.schema _).2 h2
    simp [h1] at this
  | some b =>
    have hsd : SchemaDeclared s (p1.getD k!"public") := (hk.schema _).1 (by simp [h1])
    refine .skip (fun h => h hsd) ?_
    simp only
    cases h2 : mapGet b.enum_map p2 with
    | none =>
      refine .throw ?_
      exact hk.enum_none _ (by simp [Indexer.enum?, h1, h2])
    | some vs =>
      obtain ⟨e, hem, hek, hev⟩ := hk.enum_some (p1.getD k!"public", p2) vs (by simp [Indexer.enum?, h1, h2])
      refine .skip (fun h => h e hem hek) ?_
      simp only [List.map_cons, List.map_nil, List.any_cons, List.any_nil, Bool.or_false, decide_eq_true_eq]
      refine Tells.ite ?_ fun _ => .ok .nil
      rw [List.contains_eq_mem, decide_eq_false_iff_not, hev]
      refine not_congr ?_
      constructor
      · intro h; exact ⟨e, hem, hek, h⟩
      · rintro ⟨e', h3, h4, h5⟩
        rw [nodup_map_inj hen hem h3 (hek.trans h4.symm)]
        exact h5

theorem checkDefault_tells {c : TableColumn} {st n ty v sp} (hr : HasRaw c n) (hres : Resolves n ty)
    (hargs : ColumnTypeName.fromStr n = some ty → ArgsOk ty c.type.args)
    (hst : c.settings = some st) (hv : st.default = some v) :
    Tells input
      [⟨ColumnPanics c, .crash⟩,
       .err (∃ ty, Resolves n ty ∧ ¬ DefaultFits ty c.type.args (nullableOfCol c) v) (misfit c v) sp]
      (checkDefault c st ty v sp input) := by
  have hdef : defaultOf c = some v := by simp [defaultOf, hst, hv]
  have hnull : nullableOfCol c = st.nullable := by simp [nullableOfCol, hst]
  have hex : (∃ ty, Resolves n ty ∧ ¬ DefaultFits ty c.type.args (nullableOfCol c) v) ↔
      ¬ DefaultFits ty c.type.args (nullableOfCol c) v :=
    ⟨fun ⟨ty', h1, h2⟩ => Resolves.unique h1 hres ▸ h2, fun h => ⟨ty, hres, h⟩⟩
  have hpanic : ColumnPanics c → (ty = .bit ∨ ty = .char ∨ ty = .varbit ∨ ty = .varchar) ∧ c.type.args = [] ∧
      ∃ w, v = .string w := by
    rintro ⟨n', ty', w, h1, h2, h3, h4, h5⟩
    have : n' = n := by have := h1.symm.trans hr; simpa using this
    subst this
    rw [Resolves.unique hres (.inl h2)]
    rw [hdef] at h5
    exact ⟨h3, h4, w, Option.some.inj h5⟩
  -- string defaults of sized types
  have hstr : ∀ w, v = .string w → ∀ p : Int → Bool,
      (ty = .bit ∨ ty = .char ∨ ty = .varbit ∨ ty = .varchar) →
      (∀ m, c.type.args = [.integer m] → (StringFits ty c.type.args (blen w) ↔ p m = false)) →
      Tells input
        [⟨ColumnPanics c, .crash⟩,
         .err (¬ StringFits ty c.type.args (blen w)) (.invalidDefaultValue w c.type.raw) sp]
        (do if ← firstArgMatches c.type.args p then throwErr (.invalidDefaultValue w c.type.raw) sp input
            else return () : Rs Unit) := by
    intro w hw p hcase hp
    subst hw
    have hb : ColumnTypeName.fromStr n = some ty := by
      rcases hres with h | ⟨-, k, -, rfl⟩
      · exact h
      · simp at hcase
    rcases hargs hb with ha | ⟨ha, hi⟩
    · rw [ha]
      exact Tells.crash ⟨n, ty, w, hr, hb, hcase, ha, hdef⟩
    · have ha1 : c.type.args.length = 1 := by
        rw [ha]; rcases hcase with rfl | rfl | rfl | rfl <;> rfl
      obtain ⟨x, hx⟩ := List.length_eq_one_iff.1 ha1
      obtain ⟨m, rfl⟩ := hi x (by simp [hx])
      have hpm := hp m hx
      refine .skip (fun h => by have := (hpanic h).2.1; simp [hx] at this) ?_
      rw [hpm, hx]
      simp only [firstArgMatches]
      rw [Rs.ok_bind']
      exact Tells.ite (by simp) fun _ => .pure .nil
  rw [hex]
  unfold checkDefault
  cases v with
  | string w =>
    simp only [DefaultFits]
    split
    · exact hstr w rfl _ (Or.inl rfl) fun m hm => by simp [StringFits, hm]
    · exact hstr w rfl _ (Or.inr (Or.inl rfl)) fun m hm => by simp [StringFits, hm]
    · exact hstr w rfl _ (Or.inr (Or.inr (Or.inl rfl))) fun m hm => by simp [StringFits, hm]
    · exact hstr w rfl _ (Or.inr (Or.inr (Or.inr rfl))) fun m hm => by simp [StringFits, hm]
    · rename_i h1 h2 h3 h4
      refine .skip (fun h => ?_) (.skip (fun h => h ?_) (.ok .nil))
      · have := (hpanic h).1
        rcases this with h | h | h | h <;> simp_all
      · unfold StringFits
        cases ty <;> simp_all
  | integer m =>
    refine .skip (fun h => by obtain ⟨-, -, w, h⟩ := hpanic h; cases h) ?_
    simp only [DefaultFits]
    split
    · refine Tells.ite ?_ fun _ => .ok .nil
      simp only [IntFits, i16Max, i16Min]; omega
    · refine Tells.ite ?_ fun _ => .ok .nil
      simp only [IntFits, i32Max, i32Min]; omega
    · refine Tells.ite ?_ fun _ => .ok .nil
      simp only [IntFits, i64MaxI, i64MinI]; omega
    · refine .skip (fun h => h ?_) (.ok .nil)
      unfold IntFits
      cases ty <;> simp_all
  | bool b =>
    refine .skip (fun h => by obtain ⟨-, -, w, h⟩ := hpanic h; cases h) ?_
    by_cases h : ty = .bool
    · simp only [if_pos h]; exact .skip (fun h' => h' h) (.ok .nil)
    · simp only [if_neg h]; exact .throw h
  | null =>
    refine .skip (fun h => by obtain ⟨-, -, w, h⟩ := hpanic h; cases h) ?_
    simp only [DefaultFits, hnull]
    by_cases h : st.nullable = some .null
    · rw [if_pos h]; exact .skip (fun h' => h' h) (.ok .nil)
    · rw [if_neg h]; exact .throw h
  | enum _ => exact .skip (fun h => by obtain ⟨-, -, w, h⟩ := hpanic h; cases h) (.skip (fun h => h trivial) (.ok .nil))
  | decimal _ => exact .skip (fun h => by obtain ⟨-, -, w, h⟩ := hpanic h; cases h) (.skip (fun h => h trivial) (.ok .nil))
  | hexColor _ => exact .skip (fun h => by obtain ⟨-, -, w, h⟩ := hpanic h; cases h) (.skip (fun h => h trivial) (.ok .nil))
  | expr _ => exact .skip (fun h => by obtain ⟨-, -, w, h⟩ := hpanic h; cases h) (.skip (fun h => h trivial) (.ok .nil))

theorem typeColumn_tells {ix} (hk : Indexed s ix) (hen : (s.enums.map enumKey).Nodup) {c} (hc : c ∈ columns s)
    (hraw : ∃ n, HasRaw c n) (hpl : DefaultPlaced c) : Tells input (columnChecks s c) (typeColumn ix input c) := by
  obtain ⟨n, hr⟩ := hraw
  unfold columnChecks typeColumn
  have hr' : c.type.type_name = .raw n := hr
  simp only [hr']
  refine Tells.bind ?_ fun ty hty _ => ?_
  · unfold resolveType
    simp only [hr']
    cases hf : ColumnTypeName.fromStr n with
    | some ty => exact checkTypeArgs_tells.bind_ok fun _ _ => ⟨_, rfl⟩
    | none =>
      refine enumParts_tells.bind fun p hp _ => ?_
      have he := (enumParts_out (input := input) (K := NoK) hc hr hf).of_ok hp
      cases hs : c.settings with
      | none => simp only [defaultOf, hs]; exact .ok .nil
      | some st =>
        cases hd : st.default with
        | none =>
          simp only [defaultOf, hs, Option.bind_some, hd, Option.toList_none, List.flatMap_nil]
          split
          · rename_i h; cases h; cases hd
          · exact .pure .nil
        | some v =>
          have hdef : defaultOf c = some v := by simp [defaultOf, hs, hd]
          obtain ⟨sp, hsp⟩ := hpl (by simp [hdef])
          simp only [hdef, Option.toList_some, List.flatMap_cons, List.flatMap_nil, List.append_nil]
          obtain ⟨a1, a2, a3, a4, a5, a6, a7, a8, a9⟩ := st
          simp only at hd
          subst hd
          simp only [defaultSpan_place hs hsp, Rs.ok_bind']
          exact (checkEnumDefault_tells hk he hen).bind_ok fun _ _ => ⟨_, rfl⟩
  · obtain ⟨n', hr2, hres, hargs, -⟩ := (resolveType_out (input := input) hk hc).of_ok hty
    have : n' = n := by have := hr2.symm.trans hr; simpa using this
    subst this
    refine Tells.bind_ok ?_ fun _ _ => ⟨_, rfl⟩
    unfold checkColDefault
    cases hs : c.settings with
    | none => simp only [defaultOf, hs]; exact .ok .nil
    | some st =>
      cases hd : st.default with
      | none => simp only [defaultOf, hs, Option.bind_some, hd, Option.toList_none, List.flatMap_nil]; exact .ok .nil
      | some v =>
        have hdef : defaultOf c = some v := by simp [defaultOf, hs, hd]
        obtain ⟨sp, hsp⟩ := hpl (by simp [hdef])
        simp only [hdef, Option.toList_some, List.flatMap_cons, List.flatMap_nil, List.append_nil,
          defaultSpan_place hs hsp, hd, Rs.ok_bind']
        exact checkDefault_tells hr hres hargs hs hd

theorem typeTables_tells {ix} (hk : Indexed s ix) (hen : (s.enums.map enumKey).Nodup)
    (hraw : ∀ c ∈ columns s, ∃ n, HasRaw c n) (hpl : ∀ c ∈ columns s, DefaultPlaced c) :
    Tells input ((columns s).flatMap (columnChecks s)) (s.tables.mapM (typeTable ix input)) := by
  have : (columns s).flatMap (columnChecks s) = s.tables.flatMap fun t => t.cols.flatMap (columnChecks s) := by
    unfold columns; rw [List.flatMap_assoc]
  rw [this]
  refine Tells.mapM s.tables fun t ht => ?_
  unfold typeTable
  refine (Tells.mapM t.cols fun c hc => ?_).bind_ok fun _ _ => ⟨_, rfl⟩
  have hc := mem_columns ht hc
  exact typeColumn_tells hk hen hc (hraw c hc) (hpl c hc)

end
end Dbml

import Verif.Proofs.CheckCost1

/-!
# Bounds for the instrumented analysis: the rules, and the index
-/

namespace Dbml

variable {α β σ : Type}

/-- At most `n` steps, and a value is one that satisfies `Q`. -/
def Runs (x : Ct α) (n : Nat) (Q : α → Prop) : Prop := x.steps ≤ n ∧ ∀ v, x.val = .ok v → Q v

theorem Runs.bind {x : Ct α} {f : α → Ct β} {n m k : Nat} {P : α → Prop} {Q : β → Prop} (h1 : Runs x n P)
    (h2 : ∀ v, P v → Runs (f v) m Q) (hk : n + m ≤ k) : Runs (x >>= f) k Q := by
  refine ⟨?_, ?_⟩
  · rw [Ct.steps_bind]
    have := h1.1
    cases h : x.val with
    | ok a => have := (h2 a (h1.2 a h)).1; simp only; omega
    | _ => simp only; omega
  · intro v hv
    rw [Ct.val_bind] at hv
    cases h : x.val with
    | ok a => rw [h] at hv; exact (h2 a (h1.2 a h)).2 v hv
    | _ => rw [h] at hv; cases hv

theorem Runs.tick {f : Unit → Ct β} {n k : Nat} {Q : β → Prop} (h : n ≤ k) (h2 : Runs (f ()) (k - n) Q) :
    Runs (tick n >>= f) k Q :=
  Runs.bind (n := n) (P := fun _ => True) ⟨Nat.le_refl _, fun _ _ => trivial⟩ (fun _ _ => h2) (by omega)

theorem Runs.pure {a : α} {n : Nat} {Q : α → Prop} (h : Q a) : Runs (pure a) n Q :=
  ⟨Nat.zero_le _, fun v hv => by cases hv; exact h⟩

theorem Runs.charge {x : Rs α} {n k : Nat} {Q : α → Prop} (h : n ≤ k) (hq : ∀ v, x = .ok v → Q v) : Runs (charge n x) k Q :=
  ⟨h, hq⟩

theorem Runs.tick' {n k : Nat} {Q : Unit → Prop} (h : n ≤ k) (hq : Q ()) : Runs (Dbml.tick n) k Q := ⟨h, fun _ _ => hq⟩

theorem Runs.throw {e sp i} {k : Nat} {Q : α → Prop} (h : i.length + 1 ≤ k) : Runs (throwErrC e sp i) k Q := by
  refine ⟨h, fun v hv => ?_⟩
  simp only [throwErrC_val, throwErr] at hv
  split at hv <;> cases hv

theorem Runs.ite {p : Prop} [Decidable p] {x y : Ct α} {k : Nat} {Q : α → Prop} (h1 : p → Runs x k Q) (h2 : ¬ p → Runs y k Q) :
    Runs (if p then x else y) k Q := by
  split
  · exact h1 ‹_›
  · exact h2 ‹_›

theorem Runs.mono {x : Ct α} {n k : Nat} {P Q : α → Prop} (h : Runs x n P) (hk : n ≤ k) (hq : ∀ v, P v → Q v) : Runs x k Q :=
  ⟨Nat.le_trans h.1 hk, fun v hv => hq v (h.2 v hv)⟩

/-- A loop with a state. -/
theorem Runs.foldlM {f : σ → α → Ct σ} (I : Nat → σ → Prop) {b d : α → Nat} {W : Nat} : ∀ (l : List α) (w : Nat) (s : σ),
    (∀ a ∈ l, ∀ w s, w + d a ≤ W → I w s → Runs (f s a) (b a) (I (w + d a))) → w + (l.map d).sum ≤ W → I w s →
    Runs (l.foldlM f s) ((l.map b).sum) (I (w + (l.map d).sum))
  | [], w, s, _, _, hs => Runs.pure hs
  | a :: l, w, s, hf, hW, hs => by
    simp only [List.map_cons, List.sum_cons] at hW ⊢
    rw [List.foldlM_cons]
    refine Runs.bind (hf a (by simp) w s (by omega) hs) (fun s' hs' => ?_) (Nat.le_refl _)
    have := Runs.foldlM I l (w + d a) s' (fun x hx => hf x (by simp [hx])) (by omega) hs'
    rwa [Nat.add_assoc] at this

/-- A loop without a state. -/
theorem Runs.forEach {f : α → Ct Unit} {b : α → Nat} : ∀ (l : List α), (∀ a ∈ l, Runs (f a) (b a) fun _ => True) →
    Runs (forEachC f l) ((l.map b).sum) fun _ => True
  | [], _ => Runs.pure trivial
  | a :: l, h => by
    unfold forEachC
    exact Runs.bind (h a (by simp)) (fun _ _ => Runs.forEach l fun x hx => h x (by simp [hx])) (by simp)

/-- A loop that collects results. -/
theorem Runs.mapM {f : α → Ct β} {b : α → Nat} {Q : α → β → Prop} : ∀ (l : List α), (∀ a ∈ l, Runs (f a) (b a) (Q a)) →
    Runs (l.mapM f) ((l.map b).sum) fun r => r.length = l.length ∧ ∀ y ∈ r, ∃ a ∈ l, Q a y
  | [], _ => Runs.pure (by simp)
  | a :: l, h => by
    rw [List.mapM_cons]
    refine Runs.bind (h a (by simp)) (fun y hy => ?_) (k := ((a :: l).map b).sum) (m := (l.map b).sum) (by simp)
    refine Runs.bind (Runs.mapM l fun x hx => h x (by simp [hx])) (fun ys hys => ?_) (m := 0) (by omega)
    refine Runs.pure ⟨by simp [hys.1], ?_⟩
    intro z hz
    rcases List.mem_cons.1 hz with rfl | hz
    · exact ⟨a, by simp, hy⟩
    · obtain ⟨x, hx, hq⟩ := hys.2 z hz
      exact ⟨x, by simp [hx], hq⟩

/-! ## Sums -/

theorem list_cons (f : α → Nat) (a : α) (l : List α) : Size.list f (a :: l) = f a + Size.list f l := by simp [Size.list]

theorem sum_le {f g : α → Nat} : ∀ {l : List α}, (∀ a ∈ l, f a ≤ g a) → (l.map f).sum ≤ (l.map g).sum
  | [], _ => Nat.le_refl _
  | a :: l, h => by
    simp only [List.map_cons, List.sum_cons]
    exact Nat.add_le_add (h a (by simp)) (sum_le fun x hx => h x (by simp [hx]))

theorem sum_mul (f : α → Nat) (k M : Nat) : ∀ l : List α, (l.map fun a => k * (f a * M)).sum = k * (Size.list f l * M)
  | [] => by simp [Size.list]
  | a :: l => by
    rw [list_cons, List.map_cons, List.sum_cons, sum_mul f k M l, Nat.add_mul, Nat.mul_add]

theorem sum_one : ∀ l : List α, (l.map fun _ => 1).sum = l.length
  | [] => rfl
  | a :: l => by simp [sum_one l]; omega

theorem length_le {f : α → Nat} : ∀ {l : List α}, (∀ a, 1 ≤ f a) → l.length ≤ Size.list f l
  | [], _ => Nat.zero_le _
  | a :: l, h => by
    rw [list_cons, List.length_cons]
    have := h a
    have := length_le (l := l) h
    omega

theorem mem_le {f : α → Nat} {a : α} : ∀ {l : List α}, a ∈ l → f a ≤ Size.list f l
  | b :: l, h => by
    rw [list_cons]
    rcases List.mem_cons.1 h with rfl | h
    · omega
    · have := mem_le (f := f) h; omega

theorem mapGet_mem [DecidableEq α] {k : α} {v : β} : ∀ {m : List (α × β)}, mapGet m k = some v → ∃ e ∈ m, e.2 = v
  | [], h => by simp [mapGet] at h
  | (x, y) :: m, h => by
    simp only [mapGet, List.lookup_cons] at h
    split at h
    · injection h with h; exact ⟨(x, y), by simp, h⟩
    · obtain ⟨e, he, h⟩ := mapGet_mem (m := m) h
      exact ⟨e, by simp [he], h⟩

/-! ## Trees -/

theorem log2_le : ∀ n, Nat.log2 n ≤ n := fun n => by
  by_cases h : n = 0
  · subst h; decide
  · exact Nat.le_of_lt (Nat.log2_lt h |>.2 Nat.lt_two_pow_self)

theorem look_le {α : Type} (l : List α) : lookSteps l ≤ l.length + 1 := by
  have := log2_le l.length
  unfold lookSteps
  omega

/-! ## Duplicate keys -/

theorem dupKeysC_le (key : α → Str) {M : Nat} : ∀ (l : List α) (seen : List Str), seen.length + l.length + 1 ≤ M →
    Runs (dupKeysC key seen l) (l.length * M) fun _ => True
  | [], _, _ => Runs.pure trivial
  | a :: l, seen, h => by
    simp only [List.length_cons] at h ⊢
    rw [Nat.add_mul, Nat.one_mul]
    unfold dupKeysC
    have := look_le seen
    refine Runs.tick (n := lookSteps seen) (by omega) (Runs.ite (fun _ => ?_) fun _ => ?_)
    · exact Runs.bind (m := 0) (dupKeysC_le key (M := M) l seen (by omega)) (fun _ _ => Runs.pure trivial) (by omega)
    · exact (dupKeysC_le key (M := M) l (key a :: seen) (by simp; omega)).mono (by omega) fun _ h => h

section
variable {M : Nat} {input : Str} (hM : input.length + 1 ≤ M)
include hM

theorem checkAttrC_le {as : List Attribute} (h : as.length + 1 ≤ M) :
    Runs (checkAttrDuplicateKeysC as input) ((as.length + 1) * M) fun _ => True := by
  unfold checkAttrDuplicateKeysC
  refine Runs.bind (m := M) (dupKeysC_le _ as [] (by simpa using h)) (fun d _ => ?_) (by rw [Nat.add_mul, Nat.one_mul]; omega)
  split
  · exact Runs.throw hM
  · exact Runs.tick' (by omega) trivial

theorem checkPropC_le {as : List Property} (h : as.length + 1 ≤ M) :
    Runs (checkPropDuplicateKeysC as input) ((as.length + 1) * M) fun _ => True := by
  unfold checkPropDuplicateKeysC
  refine Runs.bind (m := M) (dupKeysC_le _ as [] (by simpa using h)) (fun d _ => ?_) (by rw [Nat.add_mul, Nat.one_mul]; omega)
  split
  · exact Runs.throw hM
  · exact Runs.tick' (by omega) trivial

/-- `n` bounds the number of attributes. -/
theorem checkSettingsC_le {o : Option (List Attribute)} {n : Nat} (h : ∀ as, o = some as → as.length + 1 ≤ n) (h1 : 1 ≤ n) (hn : n ≤ M) :
    Runs (checkSettingsC o input) (n * M) fun _ => True := by
  have hP : M ≤ n * M := Nat.le_mul_of_pos_left M h1
  unfold checkSettingsC
  split
  · rename_i as
    have := h as rfl
    exact (checkAttrC_le hM (by omega)).mono (Nat.mul_le_mul_right M this) fun _ h => h
  · exact Runs.tick' (by omega) trivial

end

theorem attr_pos (a : Attribute) : 1 ≤ Size.attr a := by unfold Size.attr; omega

theorem attrs_lt {as : List Attribute} {n : Nat} (h : Size.list Size.attr as + 1 ≤ n) : as.length + 1 ≤ n := by
  have := length_le (l := as) attr_pos
  omega

/-! ## The index -/

/-- At most `w` entries everywhere, and small sets in them. -/
structure IxBd (M w : Nat) (ix : Indexer) : Prop where
  schemas : ix.schema_map.length ≤ w
  aliases : ix.table_alias_map.length ≤ w
  groups : ix.table_group_map.length ≤ w
  tables : ∀ e ∈ ix.schema_map, e.2.table_map.length ≤ w ∧ ∀ t ∈ e.2.table_map, t.2.length + 1 ≤ M
  enums : ∀ e ∈ ix.schema_map, e.2.enum_map.length ≤ w ∧ ∀ t ∈ e.2.enum_map, t.2.length + 1 ≤ M

theorem IxBd.init (M : Nat) : IxBd M 0 {} := by
  constructor <;> simp

theorem IxBd.block {M w ix} (h : IxBd M w ix) (s : Str) :
    ((ix.schemaBlock s).table_map.length ≤ w ∧ ∀ t ∈ (ix.schemaBlock s).table_map, t.2.length + 1 ≤ M) ∧
    ((ix.schemaBlock s).enum_map.length ≤ w ∧ ∀ t ∈ (ix.schemaBlock s).enum_map, t.2.length + 1 ≤ M) := by
  unfold Indexer.schemaBlock
  cases hg : mapGet ix.schema_map s with
  | none => simp
  | some b =>
    obtain ⟨e, he, rfl⟩ := mapGet_mem hg
    exact ⟨h.tables e he, h.enums e he⟩

theorem IxBd.up {M w ix} (h : IxBd M w ix) : IxBd M (w + 1) ix :=
  ⟨by have := h.schemas; omega, by have := h.aliases; omega, by have := h.groups; omega,
    fun e he => ⟨by have := (h.tables e he).1; omega, (h.tables e he).2⟩,
    fun e he => ⟨by have := (h.enums e he).1; omega, (h.enums e he).2⟩⟩

theorem IxBd.addTable {M w ix} (h : IxBd M w ix) (s n : Str) {cs : List Str} (hc : cs.length + 1 ≤ M) :
    IxBd M (w + 1) { ix with schema_map := (mapInsert ix.schema_map s
      { ix.schemaBlock s with table_map := mapInsert (ix.schemaBlock s).table_map n cs }) } := by
  have hb := h.block s
  have hu := h.up
  refine ⟨?_, hu.aliases, hu.groups, ?_, ?_⟩
  · simp only [mapInsert, List.length_cons]; have := h.schemas; omega
  · intro e he
    rcases List.mem_cons.1 he with rfl | he
    · refine ⟨?_, ?_⟩
      · simp only [mapInsert, List.length_cons]; omega
      · intro t ht
        rcases List.mem_cons.1 ht with rfl | ht
        · exact hc
        · exact hb.1.2 t ht
    · exact hu.tables e he
  · intro e he
    rcases List.mem_cons.1 he with rfl | he
    · exact ⟨by simp only; omega, hb.2.2⟩
    · exact hu.enums e he

theorem IxBd.addEnum {M w ix} (h : IxBd M w ix) (s n : Str) {cs : List Str} (hc : cs.length + 1 ≤ M) :
    IxBd M (w + 1) { ix with schema_map := (mapInsert ix.schema_map s
      { ix.schemaBlock s with enum_map := mapInsert (ix.schemaBlock s).enum_map n cs }) } := by
  have hb := h.block s
  have hu := h.up
  refine ⟨?_, hu.aliases, hu.groups, ?_, ?_⟩
  · simp only [mapInsert, List.length_cons]; have := h.schemas; omega
  · intro e he
    rcases List.mem_cons.1 he with rfl | he
    · exact ⟨by simp only; omega, hb.1.2⟩
    · exact hu.tables e he
  · intro e he
    rcases List.mem_cons.1 he with rfl | he
    · refine ⟨?_, ?_⟩
      · simp only [mapInsert, List.length_cons]; omega
      · intro t ht
        rcases List.mem_cons.1 ht with rfl | ht
        · exact hc
        · exact hb.2.2 t ht
    · exact hu.enums e he

theorem containsTableC_le {M w ix} (h : IxBd M w ix) (hw : w + 1 ≤ M) (s n : Str) :
    Runs (ix.containsTableC s n) (2 * M) fun _ => True := by
  have := h.schemas
  have := look_le ix.schema_map
  unfold Indexer.containsTableC
  refine Runs.tick (by omega) ?_
  split
  · rename_i b hb
    obtain ⟨e, he, rfl⟩ := mapGet_mem hb
    have := (h.tables e he).1
    have := look_le e.2.table_map
    exact Runs.charge (by omega) fun _ _ => trivial
  · exact Runs.pure trivial

theorem containsEnumC_le {M w ix} (h : IxBd M w ix) (hw : w + 1 ≤ M) (s n : Str) :
    Runs (ix.containsEnumC s n) (2 * M) fun _ => True := by
  have := h.schemas
  have := look_le ix.schema_map
  unfold Indexer.containsEnumC
  refine Runs.tick (by omega) ?_
  split
  · rename_i b hb
    obtain ⟨e, he, rfl⟩ := mapGet_mem hb
    have := (h.enums e he).1
    have := look_le e.2.enum_map
    exact Runs.charge (by omega) fun _ _ => trivial
  · exact Runs.pure trivial

section
variable {M : Nat} {input : Str} (hM : input.length + 1 ≤ M)
include hM

omit hM in
theorem column_pos (c : TableColumn) : 1 ≤ Size.column c := by unfold Size.column; omega

omit hM in
theorem col_attrs (c : TableColumn) : ∀ as, c.settings.map (·.attributes) = some as → as.length + 1 ≤ Size.column c := by
  intro as h
  cases hs : c.settings with
  | none => rw [hs] at h; cases h
  | some s =>
    rw [hs] at h
    cases h
    refine attrs_lt ?_
    unfold Size.column
    rw [hs]
    simp only [Size.opt, Size.columnSettings]
    omega

theorem indexColsC_le {cols : List TableColumn} (h : Size.list Size.column cols + 1 ≤ M) :
    Runs (Indexer.indexColsC cols input) (3 * (Size.list Size.column cols * M)) fun r => r.length + 1 ≤ M := by
  have hl := length_le (l := cols) (f := Size.column) (by intro c; unfold Size.column; omega)
  have := Runs.foldlM (f := fun indexed (col : TableColumn) => do
      checkSettingsC (col.settings.map (·.attributes)) input
      tick (lookSteps indexed)
      if indexed.contains col.name.to_string then
        throwErrC .duplicateColumnName col.span_range input
      else pure (col.name.to_string :: indexed)) (fun w s => s.length = w) (b := fun c => 3 * (Size.column c * M)) (d := fun _ => 1)
      (W := cols.length) cols 0 [] ?_ (by simp [sum_one]) rfl
  · rw [sum_mul, sum_one, Nat.zero_add] at this
    exact this.mono (Nat.le_refl _) fun v hv => by omega
  · intro c hc w s hw hs
    have := look_le s
    have h1 : 1 ≤ Size.column c := by unfold Size.column; omega
    have h2 := mem_le (f := Size.column) hc
    have hP : M ≤ Size.column c * M := Nat.le_mul_of_pos_left M h1
    refine Runs.bind (m := 2 * M) (checkSettingsC_le hM (n := Size.column c) (col_attrs c) h1 (by omega)) (fun _ _ => ?_) (by omega)
    refine Runs.tick (by omega) (Runs.ite (fun _ => Runs.throw (by omega)) fun _ => Runs.pure ?_)
    simp [hs]

theorem indexTable1C_le {ix : Indexer} {t : TableBlock} {w : Nat} (ht : Size.table t + 1 ≤ M) (h : IxBd M w ix) (hw : w + 2 ≤ M) :
    Runs (ix.indexTable1C t input) (15 * (Size.table t * M)) (IxBd M (w + 1)) := by
  have h1 : 1 ≤ Size.table t := by unfold Size.table; omega
  have hP : M ≤ Size.table t * M := Nat.le_mul_of_pos_left M h1
  have hc : Size.list Size.column t.cols ≤ Size.table t := by unfold Size.table; omega
  have hC : Size.list Size.column t.cols * M ≤ Size.table t * M := Nat.mul_le_mul_right M hc
  have hset : ∀ as, t.settings.map (·.attributes) = some as → as.length + 1 ≤ Size.table t := by
    intro as h
    cases hs : t.settings with
    | none => rw [hs] at h; cases h
    | some s =>
      rw [hs] at h
      cases h
      refine attrs_lt ?_
      unfold Size.table
      rw [hs]
      simp only [Size.opt, Size.tableSettings]
      omega
  have := h.schemas
  have := look_le ix.schema_map
  have := h.aliases
  have := look_le ix.table_alias_map
  have hblk := (h.block (schemaOrDefault t.ident.schema)).1.1
  have := look_le (ix.schemaBlock (schemaOrDefault t.ident.schema)).table_map
  unfold Indexer.indexTable1C
  refine Runs.bind (m := 2 + (2 * M + (3 * (Size.table t * M) + 6 * M))) (checkSettingsC_le hM (n := Size.table t) hset h1 (by omega)) (fun _ _ => ?_) (by omega)
  refine Runs.tick (by omega) ?_
  refine Runs.bind (m := 3 * (Size.table t * M) + 6 * M) (containsTableC_le h (by omega) _ _) (fun b _ => ?_) (by omega)
  refine Runs.ite (fun _ => Runs.throw (by omega)) fun _ => ?_
  refine Runs.bind (m := 6 * M) (indexColsC_le hM (cols := t.cols) (by omega)) (fun cs hcs => ?_) (by omega)
  refine Runs.tick (by omega) (Runs.tick (by omega) (Runs.tick (by omega) ?_))
  have hn := h.addTable (schemaOrDefault t.ident.schema) t.ident.name.to_string hcs
  split
  · refine Runs.tick (by simp only; omega) (Runs.ite (fun _ => Runs.throw (by simp only; omega)) fun _ => ?_)
    refine Runs.tick (by simp only; omega) (Runs.pure ?_)
    refine ⟨hn.schemas, ?_, hn.groups, hn.tables, hn.enums⟩
    simp only [mapInsert, List.length_cons]
    omega
  · exact Runs.pure hn

theorem indexTableC_le {ts : List TableBlock} (hs : Size.list Size.table ts + 2 ≤ M) :
    Runs (Indexer.indexTableC {} ts input) (15 * (Size.list Size.table ts * M)) (IxBd M ts.length) := by
  have hl := length_le (l := ts) (f := Size.table) (by intro c; unfold Size.table; omega)
  have := Runs.foldlM (f := fun ix (t : TableBlock) => Indexer.indexTable1C ix t input) (IxBd M)
      (b := fun c => 15 * (Size.table c * M)) (d := fun _ => 1) (W := ts.length) ts 0 {} ?_ (by simp [sum_one]) (IxBd.init M)
  · rw [sum_mul, sum_one, Nat.zero_add] at this
    exact this
  · intro t ht w ix hw hix
    have := mem_le (f := Size.table) ht
    exact indexTable1C_le hM (by omega) hix (by omega)

theorem indexEnumValuesC_le {vs : List EnumValue} (h : Size.list Size.enumValue vs + 1 ≤ M) :
    Runs (Indexer.indexEnumValuesC vs input) (3 * (Size.list Size.enumValue vs * M)) fun r => r.length + 1 ≤ M := by
  have hl := length_le (l := vs) (f := Size.enumValue) (by intro c; unfold Size.enumValue; omega)
  have := Runs.foldlM (f := fun indexed (value : EnumValue) => do
      checkSettingsC (value.settings.map (·.attributes)) input
      tick (lookSteps indexed)
      if indexed.contains value.value.to_string then
        throwErrC .duplicateEnumValue value.span_range input
      else pure (value.value.to_string :: indexed)) (fun w s => s.length = w) (b := fun c => 3 * (Size.enumValue c * M)) (d := fun _ => 1)
      (W := vs.length) vs 0 [] ?_ (by simp [sum_one]) rfl
  · rw [sum_mul, sum_one, Nat.zero_add] at this
    exact this.mono (Nat.le_refl _) fun v hv => by omega
  · intro c hc w s hw hs
    have := look_le s
    have h1 : 1 ≤ Size.enumValue c := by unfold Size.enumValue; omega
    have h2 := mem_le (f := Size.enumValue) hc
    have hP : M ≤ Size.enumValue c * M := Nat.le_mul_of_pos_left M h1
    have hset : ∀ as, c.settings.map (·.attributes) = some as → as.length + 1 ≤ Size.enumValue c := by
      intro as h
      cases hs : c.settings with
      | none => rw [hs] at h; cases h
      | some s =>
        rw [hs] at h
        cases h
        refine attrs_lt ?_
        unfold Size.enumValue
        rw [hs]
        simp only [Size.opt, Size.enumSettings]
        omega
    refine Runs.bind (m := 2 * M) (checkSettingsC_le hM (n := Size.enumValue c) hset h1 (by omega)) (fun _ _ => ?_) (by omega)
    refine Runs.tick (by omega) (Runs.ite (fun _ => Runs.throw (by omega)) fun _ => Runs.pure ?_)
    simp [hs]

theorem indexEnum1C_le {ix : Indexer} {t : EnumBlock} {w : Nat} (ht : Size.enum t + 1 ≤ M) (h : IxBd M w ix) (hw : w + 2 ≤ M) :
    Runs (ix.indexEnum1C t input) (10 * (Size.enum t * M)) (IxBd M (w + 1)) := by
  have h1 : 1 ≤ Size.enum t := by unfold Size.enum; omega
  have hP : M ≤ Size.enum t * M := Nat.le_mul_of_pos_left M h1
  have hc : Size.list Size.enumValue t.values ≤ Size.enum t := by unfold Size.enum; omega
  have hC : Size.list Size.enumValue t.values * M ≤ Size.enum t * M := Nat.mul_le_mul_right M hc
  have := h.schemas
  have := look_le ix.schema_map
  have hblk := (h.block (schemaOrDefault t.ident.schema)).2.1
  have := look_le (ix.schemaBlock (schemaOrDefault t.ident.schema)).enum_map
  unfold Indexer.indexEnum1C
  refine Runs.tick (by omega) ?_
  refine Runs.bind (m := 3 * (Size.enum t * M) + 3 * M) (containsEnumC_le h (by omega) _ _) (fun b _ => ?_) (by omega)
  refine Runs.ite (fun _ => Runs.throw (by omega)) fun _ => ?_
  refine Runs.bind (m := 3 * M) (indexEnumValuesC_le hM (vs := t.values) (by omega)) (fun cs hcs => ?_) (by omega)
  refine Runs.tick (by omega) (Runs.tick (by omega) (Runs.tick (by omega) ?_))
  exact Runs.pure (h.addEnum (schemaOrDefault t.ident.schema) t.ident.name.to_string hcs)

theorem indexEnumsC_le {ix : Indexer} {w : Nat} {ts : List EnumBlock} (h : IxBd M w ix) (hs : w + Size.list Size.enum ts + 2 ≤ M) :
    Runs (ix.indexEnumsC ts input) (10 * (Size.list Size.enum ts * M)) (IxBd M (w + ts.length)) := by
  have hl := length_le (l := ts) (f := Size.enum) (by intro c; unfold Size.enum; omega)
  have := Runs.foldlM (f := fun ix (t : EnumBlock) => Indexer.indexEnum1C ix t input) (IxBd M)
      (b := fun c => 10 * (Size.enum c * M)) (d := fun _ => 1) (W := w + ts.length) ts w ix ?_ (by simp [sum_one]) h
  · rw [sum_mul, sum_one] at this
    exact this
  · intro t ht w ix hw hix
    have := mem_le (f := Size.enum) ht
    exact indexEnum1C_le hM (by omega) hix (by omega)

theorem groupItemIdentC_le {ix : Indexer} {w : Nat} (g : TableGroupItem) (h : IxBd M w ix) (hw : w + 1 ≤ M) :
    Runs (ix.groupItemIdentC g input) (4 * M + 2) fun _ => True := by
  have := h.aliases
  have := look_le ix.table_alias_map
  unfold Indexer.groupItemIdentC
  split
  · exact Runs.charge (by omega) fun _ _ => trivial
  · refine Runs.tick (by omega) ?_
    split
    · exact Runs.charge (by omega) fun _ _ => trivial
    · refine Runs.bind (m := M + 2) (containsTableC_le h hw _ _) (fun _ _ => ?_) (by omega)
      exact Runs.ite (fun _ => Runs.charge (by omega) fun _ _ => trivial) fun _ => Runs.throw (by omega)

theorem indexGroupItemsC_le {ix : Indexer} {w : Nat} {gs : List TableGroupItem} (h : IxBd M w ix) (hw : w + 1 ≤ M)
    (hs : Size.list Size.groupItem gs + 1 ≤ M) :
    Runs (ix.indexGroupItemsC gs input) (9 * (Size.list Size.groupItem gs * M)) fun _ => True := by
  have hl := length_le (l := gs) (f := Size.groupItem) (by intro c; unfold Size.groupItem; omega)
  have := Runs.foldlM (f := fun indexed (item : TableGroupItem) => do
      let ident ← Indexer.groupItemIdentC ix item input
      tick (2 * lookSteps indexed)
      if indexed.contains ident then
        throwErrC .duplicateTableGroupItem item.span_range input
      else pure (ident :: indexed)) (fun w s => s.length = w) (b := fun c => 9 * (Size.groupItem c * M)) (d := fun _ => 1)
      (W := gs.length) gs 0 [] ?_ (by simp [sum_one]) rfl
  · rw [sum_mul] at this
    exact this.mono (Nat.le_refl _) fun v hv => trivial
  · intro c hc w s hw hs
    have := look_le s
    have h1 : 1 ≤ Size.groupItem c := by unfold Size.groupItem; omega
    have hP : M ≤ Size.groupItem c * M := Nat.le_mul_of_pos_left M h1
    refine Runs.bind (m := 3 * M) (groupItemIdentC_le hM c h (by omega)) (fun _ _ => ?_) (by omega)
    refine Runs.tick (by omega) (Runs.ite (fun _ => Runs.throw (by omega)) fun _ => Runs.pure ?_)
    simp [hs]

theorem indexTableGroup1C_le {ix : Indexer} {t : TableGroupBlock} {w : Nat} (ht : Size.tableGroup t + 1 ≤ M) (h : IxBd M w ix) (hw : w + 2 ≤ M) :
    Runs (ix.indexTableGroup1C t input) (11 * (Size.tableGroup t * M)) (IxBd M (w + 1)) := by
  have h1 : 1 ≤ Size.tableGroup t := by unfold Size.tableGroup; omega
  have hP : M ≤ Size.tableGroup t * M := Nat.le_mul_of_pos_left M h1
  have hc : Size.list Size.groupItem t.items ≤ Size.tableGroup t := by unfold Size.tableGroup; omega
  have hC : Size.list Size.groupItem t.items * M ≤ Size.tableGroup t * M := Nat.mul_le_mul_right M hc
  have := h.groups
  have := look_le ix.table_group_map
  unfold Indexer.indexTableGroup1C
  refine Runs.tick (by omega) ?_
  refine Runs.ite (fun _ => Runs.throw (by omega)) fun _ => ?_
  refine Runs.bind (m := M) (indexGroupItemsC_le hM (gs := t.items) h (by omega) (by omega)) (fun cs _ => ?_) (by omega)
  refine Runs.tick (by omega) (Runs.pure ?_)
  have hu := h.up
  refine ⟨hu.schemas, hu.aliases, ?_, hu.tables, hu.enums⟩
  simp only [mapInsert, List.length_cons]
  omega

theorem indexTableGroupsC_le {ix : Indexer} {w : Nat} {ts : List TableGroupBlock} (h : IxBd M w ix) (hs : w + Size.list Size.tableGroup ts + 2 ≤ M) :
    Runs (ix.indexTableGroupsC ts input) (11 * (Size.list Size.tableGroup ts * M)) (IxBd M (w + ts.length)) := by
  have hl := length_le (l := ts) (f := Size.tableGroup) (by intro c; unfold Size.tableGroup; omega)
  have := Runs.foldlM (f := fun ix (t : TableGroupBlock) => Indexer.indexTableGroup1C ix t input) (IxBd M)
      (b := fun c => 11 * (Size.tableGroup c * M)) (d := fun _ => 1) (W := w + ts.length) ts w ix ?_ (by simp [sum_one]) h
  · rw [sum_mul, sum_one] at this
    exact this
  · intro t ht w ix hw hix
    have := mem_le (f := Size.tableGroup) ht
    exact indexTableGroup1C_le hM (by omega) hix (by omega)

end

end Dbml

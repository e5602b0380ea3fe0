import Verif.Props.Example
import Verif.Spec.Defects
import Verif.Proofs.RsLemmas

/-!
# Properties that follow directly from the code: C05, C37, C38, C46, C47
-/

namespace Dbml.Props
open Spec

/-- **C05**: `parse_dbml` accepts with `a` exactly when `parse_dbml_unchecked` returns `a` and analysis
of `a` succeeds. -/
theorem C05_checked_is_unchecked (input : Str) (a : SchemaBlock) :
    parseDbml input = .ok a ↔ parseDbmlUnchecked input = .ok a ∧ ∃ ix, analyze a = .ok ix := by
  unfold parseDbml
  rw [Rs.bind_eq_ok]
  constructor
  · rintro ⟨b, h1, h2⟩
    obtain ⟨ix, h3, h4⟩ := Rs.bind_eq_ok.1 h2
    cases h4
    exact ⟨h1, ix, h3⟩
  · rintro ⟨h1, ix, h2⟩
    exact ⟨a, h1, Rs.bind_eq_ok.2 ⟨ix, h2, rfl⟩⟩

/-- **C05**: the AST returned by `parse_dbml` is the one of `parse_dbml_unchecked`. -/
theorem C05_same_ast {input : Str} {a : SchemaBlock} (h : parseDbml input = .ok a) :
    parseDbmlUnchecked input = .ok a := ((C05_checked_is_unchecked input a).1 h).1

/-- **C05**: errors of `parse_dbml_unchecked` are errors of `parse_dbml`. -/
theorem C05_same_error {input : Str} {e : PError} (h : parseDbmlUnchecked input = .err e) :
    parseDbml input = .err e := by
  unfold parseDbml; rw [h]; rfl

example : parseDbml exText = .ok exAst ∧ parseDbmlUnchecked exText = .ok exAst := ⟨ex_accepted, ex_reads⟩

/-- The endpoint, after alias resolution, is on table `t`: same schema as written, same name. -/
def EndOn (t : TableIdent) (ix : Indexer) (e : RefIdent) : Prop :=
  (ix.resolveRefAlias e).schema.map (·.to_string) = t.schema.map (·.to_string) ∧
  (ix.resolveRefAlias e).table.to_string = t.name.to_string

instance (t ix e) : Decidable (EndOn t ix e) := inferInstanceAs (Decidable (_ ∧ _))

theorem identEqRef_iff (t : TableIdent) (ix : Indexer) (e : RefIdent) :
    identEqRef t (ix.resolveRefAlias e) = decide (EndOn t ix e) := by
  rw [Bool.eq_iff_iff, decide_eq_true_iff]
  unfold identEqRef EndOn
  rw [Bool.and_eq_true, decide_eq_true_iff, decide_eq_true_iff]
  exact ⟨fun h => ⟨h.1.symm, h.2.symm⟩, fun h => ⟨h.1.symm, h.2.symm⟩⟩

theorem addTableRef_foldl (t : TableIdent) (ix : Indexer) (rs : List IndexedRef) (acc : TableRef) :
    rs.foldl (addTableRef t ix) acc =
      { ref_to := acc.ref_to ++ rs.filter fun r => decide (EndOn t ix r.lhs) && !decide (EndOn t ix r.rhs)
        ref_by := acc.ref_by ++ rs.filter fun r => !decide (EndOn t ix r.lhs) && decide (EndOn t ix r.rhs)
        ref_self := acc.ref_self ++ rs.filter fun r => decide (EndOn t ix r.lhs) && decide (EndOn t ix r.rhs) } := by
  induction rs generalizing acc with
  | nil => simp
  | cons r rs ih =>
    rw [List.foldl_cons, ih]
    simp only [addTableRef, identEqRef_iff, List.filter_cons]
    cases decide (EndOn t ix r.lhs) <;> cases decide (EndOn t ix r.rhs) <;> simp

/-- **C37**: `get_table_refs` distributes the refs that touch the table, keeping their order. -/
theorem C37_table_refs (t : TableIdent) (a : AnalyzedIndexer) :
    (getTableRefs t a).ref_self = a.indexed_refs.filter (fun r => EndOn t a.indexer r.lhs ∧ EndOn t a.indexer r.rhs) ∧
    (getTableRefs t a).ref_to = a.indexed_refs.filter (fun r => EndOn t a.indexer r.lhs ∧ ¬ EndOn t a.indexer r.rhs) ∧
    (getTableRefs t a).ref_by = a.indexed_refs.filter (fun r => ¬ EndOn t a.indexer r.lhs ∧ EndOn t a.indexer r.rhs) := by
  unfold getTableRefs
  rw [addTableRef_foldl]
  refine ⟨?_, ?_, ?_⟩ <;> simp only [List.nil_append] <;> congr 1 <;> funext r <;> simp

/-- **C37**: nothing is lost or duplicated. -/
theorem C37_no_loss (t : TableIdent) (a : AnalyzedIndexer) :
    (getTableRefs t a).ref_self.length + (getTableRefs t a).ref_to.length + (getTableRefs t a).ref_by.length =
      (a.indexed_refs.filter fun r => EndOn t a.indexer r.lhs ∨ EndOn t a.indexer r.rhs).length := by
  obtain ⟨h1, h2, h3⟩ := C37_table_refs t a
  rw [h1, h2, h3]
  generalize a.indexed_refs = rs
  induction rs with
  | nil => rfl
  | cons r rs ih =>
    simp only [List.filter_cons, Bool.decide_and, Bool.decide_or, decide_not] at ih ⊢
    by_cases hl : EndOn t a.indexer r.lhs <;> by_cases hr : EndOn t a.indexer r.rhs <;> simp [hl, hr] <;> omega

/-- **C38**: a successful analysis indexes exactly the refs of the schema, in order. -/
theorem C38_indexed_refs {s : SchemaBlock} {a : AnalyzedIndexer} (h : analyze s = .ok a) :
    a.indexed_refs = refsInOrder s := by
  unfold analyze at h
  obtain ⟨_, -, h⟩ := Rs.bind_eq_ok.1 h
  obtain ⟨_, -, h⟩ := Rs.bind_eq_ok.1 h
  obtain ⟨_, -, h⟩ := Rs.bind_eq_ok.1 h
  obtain ⟨_, -, h⟩ := Rs.bind_eq_ok.1 h
  obtain ⟨_, -, h⟩ := Rs.bind_eq_ok.1 h
  obtain ⟨_, -, h⟩ := Rs.bind_eq_ok.1 h
  obtain ⟨_, -, h⟩ := Rs.bind_eq_ok.1 h
  cases h
  show _ ++ _ = _
  unfold refsInOrder inlineRefs columnRefs IndexedRef.fromInline IndexedRef.ofRefBlock
  refine congrArg _ ?_
  refine congrArg (fun f => List.flatMap f s.tables) (funext fun t => ?_)
  refine congrArg (fun f => List.flatMap f t.cols) (funext fun c => ?_)
  cases c.settings <;> simp

/-- Built-in types and their spellings, as documented. -/
def builtinNames : List (ColumnTypeName × List Str) :=
  [(.bit, [k!"bit"]), (.varbit, [k!"varbit", k!"bit varying"]), (.char, [k!"char", k!"character"]),
   (.varchar, [k!"varchar", k!"character varying"]), (.box, [k!"box"]), (.cidr, [k!"cidr"]),
   (.circle, [k!"circle"]), (.inet, [k!"inet"]), (.line, [k!"line"]), (.lineSegment, [k!"lseg"]),
   (.macAddr, [k!"macaddr"]), (.macAddr8, [k!"macaddr8"]), (.money, [k!"money"]), (.path, [k!"path"]),
   (.pgLongSequenceNumber, [k!"pg_lsn"]), (.pgSnapshot, [k!"pg_snapshot"]), (.point, [k!"point"]),
   (.polygon, [k!"polygon"]), (.tsQuery, [k!"tsquery"]), (.tsVector, [k!"tsvector"]),
   (.smallSerial, [k!"smallserial", k!"serial2"]), (.serial, [k!"serial", k!"serial4"]),
   (.bigSerial, [k!"bigserial", k!"serial8"]), (.smallInt, [k!"smallint", k!"int2"]),
   (.integer, [k!"integer", k!"int", k!"int4"]), (.bigInt, [k!"bigint", k!"int8"]),
   (.real, [k!"real", k!"float4"]), (.doublePrecision, [k!"double precision", k!"float8"]),
   (.bool, [k!"bool", k!"boolean"]), (.byteArray, [k!"bytea"]), (.date, [k!"date"]), (.text, [k!"text"]),
   (.time, [k!"time", k!"time without time zone"]), (.timetz, [k!"timetz", k!"time with time zone"]),
   (.timestamp, [k!"timestamp", k!"timestamp without time zone"]),
   (.timestamptz, [k!"timestamptz", k!"timestamp with time zone"]), (.uuid, [k!"uuid"]),
   (.json, [k!"json"]), (.jsonb, [k!"jsonb"]), (.decimal, [k!"decimal", k!"numeric"]), (.xml, [k!"xml"])]

theorem lookup_of_mem {α β : Type} [BEq α] [LawfulBEq α] {l : List (α × β)} (hn : (l.map Prod.fst).Nodup) {a b}
    (h : (a, b) ∈ l) : l.lookup a = some b := by
  induction l with
  | nil => simp at h
  | cons x xs ih =>
    obtain ⟨k, v⟩ := x
    simp only [List.map_cons, List.nodup_cons] at hn
    rcases List.mem_cons.1 h with h' | h'
    · cases h'; simp
    · have : a ≠ k := by rintro rfl; exact hn.1 (List.mem_map_of_mem (f := Prod.fst) h')
      rw [List.lookup_cons, beq_false_of_ne this]
      exact ih hn.2 h'

theorem mem_of_lookup {α β : Type} [BEq α] [LawfulBEq α] {l : List (α × β)} {a b} (h : l.lookup a = some b) :
    (a, b) ∈ l := by
  induction l with
  | nil => simp at h
  | cons x xs ih =>
    obtain ⟨k, v⟩ := x
    rw [List.lookup_cons] at h
    cases hk : a == k with
    | true => rw [hk] at h; cases h; rw [eq_of_beq hk]; simp
    | false => rw [hk] at h; exact List.mem_cons_of_mem _ (ih h)

/-- **C46**: a string names a built-in type exactly when it is one of the documented spellings of that
type. -/
theorem C46_builtin_types (n : Str) (t : ColumnTypeName) :
    ColumnTypeName.fromStr n = some t ↔ ∃ names, (t, names) ∈ builtinNames ∧ n ∈ names := by
  have h1 : ∀ p ∈ ColumnTypeName.table, ∃ e ∈ builtinNames, e.1 = p.2 ∧ p.1 ∈ e.2 := by decide +kernel
  have h2 : ∀ e ∈ builtinNames, ∀ n ∈ e.2, (n, e.1) ∈ ColumnTypeName.table := by decide +kernel
  have h3 : (ColumnTypeName.table.map Prod.fst).Nodup := by decide +kernel
  constructor
  · intro h
    obtain ⟨e, he, h4, h5⟩ := h1 _ (mem_of_lookup h)
    simp only at h4; subst h4; exact ⟨e.2, he, h5⟩
  · rintro ⟨names, hm, hn⟩
    exact lookup_of_mem h3 (h2 _ hm _ hn)

/-- **C46**: parsing a type name never yields a placeholder. -/
theorem C46_never_placeholder (n : Str) (t : ColumnTypeName) (h : ColumnTypeName.fromStr n = some t) :
    t ≠ .undef ∧ (∀ s, t ≠ .raw s) ∧ ∀ s, t ≠ .enum s := by
  have : ∀ p ∈ ColumnTypeName.table, p.2 ≠ .undef ∧
      (match p.2 with | .raw _ => false | .enum _ => false | _ => true) = true := by decide +kernel
  obtain ⟨h1, h2⟩ := this _ (mem_of_lookup h)
  simp only at h1 h2
  refine ⟨h1, ?_, ?_⟩ <;> rintro s rfl <;> simp at h2

example : ColumnTypeName.fromStr k!"int4" = some .integer ∧ ColumnTypeName.fromStr k!"INT" = none := by
  decide

/-- **C47**: each accessor returns exactly the blocks of its kind in document order. -/
theorem C47_accessors (s : SchemaBlock) :
    s.projects.map .project = s.blocks.filter (fun b => match b with | .project _ => true | _ => false) ∧
    s.tables.map .table = s.blocks.filter (fun b => match b with | .table _ => true | _ => false) ∧
    s.table_groups.map .tableGroup = s.blocks.filter (fun b => match b with | .tableGroup _ => true | _ => false) ∧
    s.refs.map .ref = s.blocks.filter (fun b => match b with | .ref _ => true | _ => false) ∧
    s.enums.map .enum = s.blocks.filter (fun b => match b with | .enum _ => true | _ => false) := by
  simp only [SchemaBlock.projects, SchemaBlock.tables, SchemaBlock.table_groups, SchemaBlock.refs,
    SchemaBlock.enums]
  generalize s.blocks = bs
  induction bs with
  | nil => simp
  | cons b bs ih =>
    obtain ⟨h1, h2, h3, h4, h5⟩ := ih
    cases b <;> simp [h1, h2, h3, h4, h5]

/-- **C47**: every block is returned by one accessor or is a note; so the accessors lose nothing. -/
theorem C47_no_loss (s : SchemaBlock) :
    s.projects.length + s.tables.length + s.table_groups.length + s.refs.length + s.enums.length +
      (s.blocks.filter (fun b => match b with | .note _ => true | _ => false)).length = s.blocks.length := by
  simp only [SchemaBlock.projects, SchemaBlock.tables, SchemaBlock.table_groups, SchemaBlock.refs,
    SchemaBlock.enums]
  generalize s.blocks = bs
  induction bs with
  | nil => simp
  | cons b bs ih => cases b <;> simp <;> omega

example : exAst.tables.length = 2 ∧ exAst.blocks.length = 7 := by decide +kernel

end Dbml.Props

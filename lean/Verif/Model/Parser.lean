import Verif.Model.Grammar
import Verif.Model.Result

/-!
# From pairs to the AST: `/repo/src/parser/mod.rs`

Every Rust function `parse_xxx(pair)` becomes `parseXxx : Pair → Rs _`. `try_fold` and the
`for p in pair.into_inner()` loops that update an accumulator become `List.foldlM`.
-/

namespace Dbml

/-- `Pairs::as_str` of `p.into_inner()` (used at `/repo/src/parser/mod.rs:860,917,960`): the text from
the start of the first inner pair to the end of the last one, `""` if there is none. -/
def innerStr (p : Pair) : Str :=
  match p.children with
  | [] => []
  | [q] => q.text
  | q :: qs =>
    slice p.text ⟨q.span.start - p.span.start, ((q :: qs).getLast (by simp)).span.stop - p.span.start⟩

/-- Message of `core::num::IntErrorKind::PosOverflow`.
`/repo/src/parser/mod.rs:265,844`. -/
def posOverflow : Str := k!"number too large to fit in target type"

/-- `str::parse::<u32>()` / `str::parse::<i64>()` on a non-empty digit string (the only texts the
`integer` rule produces): the value, or `PosOverflow` when it exceeds `max`.
`/repo/src/parser/mod.rs:265,844`. -/
def parseUnsigned (s : Str) (max : Nat) : Option Nat :=
  let n := F64.digitsVal s
  if n ≤ max then some n else none

/-- `u32::MAX`
`/repo/src/parser/mod.rs:265`. -/
def u32Max : Nat := 4294967295
/-- `i64::MAX`
`/repo/src/parser/mod.rs:844`. -/
def i64Max : Nat := 9223372036854775807

/-- `parse_string_value`, `/repo/src/parser/mod.rs:790-816` -/
def parseStringValue (pair : Pair) : Rs Str :=
  pair.children.foldlM (init := ([] : Str)) fun out p1 =>
    match p1.rule with
    | .triple_quoted_string =>
      p1.children.foldlM (init := out) fun _ p2 =>
        match p2.rule with
        | .triple_quoted_value => .ok p2.text
        | _ => throwRules [.triple_quoted_value] p2
    | .single_quoted_string =>
      p1.children.foldlM (init := out) fun _ p2 =>
        match p2.rule with
        | .single_quoted_value => .ok p2.text
        | _ => throwRules [.single_quoted_value] p2
    | _ => throwRules [.triple_quoted_string, .single_quoted_string] p1

/-- `parse_value`, `/repo/src/parser/mod.rs:818-874`. `parse::<f64>` never fails on a text of the
`decimal` rule, so its error branch (line 840) is not represented. -/
def parseValue (pair : Pair) : Rs Value := do
  let p1 ← Rs.orPanic pair.children.head? .value
  match p1.rule with
  | .string_value => do
    let v ← parseStringValue p1
    return .string v
  | .number_value => do
    let p2 ← Rs.orPanic p1.children.head? .value
    match p2.rule with
    | .decimal => return .decimal (F64.parse p2.text)
    | .integer =>
      match parseUnsigned p2.text i64Max with
      | some n => return .integer n
      | none => throwMsg posOverflow p2
    | _ => throwRules [.decimal, .integer] p2
  | .boolean_value =>
    match Value.fromStr p1.text with
    | some v => return v
    | none => throwMsg (k!"'" ++ p1.text ++ k!"' is incompatible with boolean value") p1
  | .hex_value => return .hexColor p1.text
  | .backquoted_quoted_string => return .expr (innerStr p1)
  | _ =>
    throwRules [.string_value, .number_value, .boolean_value, .hex_value, .backquoted_quoted_string] p1

/-- `parse_ident`, `/repo/src/parser/mod.rs:899-924` -/
def parseIdent (pair : Pair) : Rs Ident := do
  let p1 ← Rs.orPanic pair.children.head? .ident
  match p1.rule with
  | .var => return { span_range := p1.span, raw := p1.text, to_string := p1.text }
  | .double_quoted_string =>
    return { span_range := p1.span, raw := p1.text, to_string := innerStr p1 }
  | _ => throwRules [.var, .double_quoted_string] p1

/-- `parse_decl_ident`, `/repo/src/parser/mod.rs:876-897` -/
def parseDeclIdent (pair : Pair) : Rs (Option Ident × Ident) := do
  let tmpTokens ← pair.children.foldlM (init := ([] : List Ident)) fun acc p1 =>
    match p1.rule with
    | .ident => do
      let i ← parseIdent p1
      return acc ++ [i]
    | _ => throwRules [.ident] p1
  match tmpTokens with
  | [name] => return (none, name)
  | [schema, name] => return (some schema, name)
  | _ => .panic .declIdent

/-- `parse_attribute`, `/repo/src/parser/mod.rs:926-968` -/
def parseAttribute (pair : Pair) : Rs Attribute :=
  pair.children.foldlM (init := ({ span_range := pair.span } : Attribute)) fun acc p1 =>
    match p1.rule with
    | .spaced_var =>
      if acc.key.raw.isEmpty then
        .ok { acc with key := { span_range := p1.span, raw := p1.text, to_string := p1.text } }
      else
        .ok { acc with value := some { span_range := p1.span, raw := p1.text, value := .enum p1.text } }
    | .value => do
      let v ← parseValue p1
      return { acc with value := some { span_range := p1.span, raw := p1.text, value := v } }
    | .double_quoted_string =>
      .ok { acc with
        value := some { span_range := p1.span, raw := p1.text, value := .string (innerStr p1) } }
    | _ => throwRules [.value, .spaced_var, .double_quoted_string] p1

/-- `parse_property`, `/repo/src/parser/mod.rs:970-983` -/
def parseProperty (pair : Pair) : Rs Property := do
  let init ← parseAttribute pair
  match init.value with
  | some value => return { span_range := init.span_range, key := init.key, value := value }
  | none => throwRules [.property] pair

/-- Inner loop of `parse_note_decl`, `/repo/src/parser/mod.rs:648-664`: returns at the first pair. -/
def parseNoteInner (p1 : Pair) : List Pair → Rs (Option NoteBlock)
  | [] => .ok none
  | p2 :: _ =>
    match p2.rule with
    | .string_value => do
      let value ← parseStringValue p2
      return some
        { span_range := p1.span
          value := { span_range := p2.span, raw := p2.text, value := .string value } }
    | _ => throwRules [.string_value] p2

/-- `parse_note_decl`, `/repo/src/parser/mod.rs:644-671` -/
def parseNoteDecl (pair : Pair) : Rs NoteBlock :=
  go pair.children
where
  go : List Pair → Rs NoteBlock
    | [] => .panic .noteDecl
    | p1 :: ps =>
      match p1.rule with
      | .note_short | .note_block => do
        match ← parseNoteInner p1 p1.children with
        | some n => return n
        | none => go ps
      | _ => throwRules [.note_short, .note_block] p1

/-- `parse_project_decl`, `/repo/src/parser/mod.rs:102-141` -/
def parseProjectDecl (pair : Pair) : Rs ProjectBlock :=
  pair.children.foldlM (init := ({ span_range := pair.span } : ProjectBlock)) fun acc p1 =>
    match p1.rule with
    | .ident => do
      let i ← parseIdent p1
      return { acc with ident := i }
    | .project_block =>
      p1.children.foldlM (init := acc) fun acc p2 =>
        match p2.rule with
        | .property => do
          let prop ← parseProperty p2
          let acc : ProjectBlock :=
            if prop.key.to_string = k!"database_type" then
              match prop.value.value with
              | .string dbName => { acc with database_type := some (DatabaseType.fromStr dbName) }
              | _ => acc
            else acc
          return { acc with properties := acc.properties ++ [prop] }
        | .note_decl => do
          let n ← parseNoteDecl p2
          return { acc with note := some n }
        | _ => throwRules [.property, .note_decl] p2
    | _ => throwRules [.project_block] p1

/-- The `.map(|p1| match p1.as_rule() { attribute => parse_attribute(p1), .. }).collect()` of
`parse_table_settings` (`/repo/src/parser/mod.rs:200-208`) and `parse_table_group_settings`
(`/repo/src/parser/mod.rs:580-588`). -/
def parseAttrList (pair : Pair) : Rs (List Attribute) :=
  pair.children.mapM fun p1 =>
    match p1.rule with
    | .attribute => parseAttribute p1
    | _ => throwRules [.attribute] p1

/-- `parse_table_settings`, `/repo/src/parser/mod.rs:197-210` -/
def parseTableSettings (pair : Pair) : Rs TableSettings := do
  let attributes ← parseAttrList pair
  return { span_range := pair.span, attributes := attributes }

/-- `parse_table_group_settings`, `/repo/src/parser/mod.rs:577-590` -/
def parseTableGroupSettings (pair : Pair) : Rs TableGroupSettings := do
  let attributes ← parseAttrList pair
  return { span_range := pair.span, attributes := attributes }

/-- `build_type_name_with_schema`, `/repo/src/parser/mod.rs:232-238` -/
def buildTypeNameWithSchema (schema : Option Ident) (typeName : Pair) : Str :=
  match schema with
  | some s => s.to_string ++ k!"." ++ typeName.text
  | none => typeName.text

/-- `parse_col_type_arg`, `/repo/src/parser/mod.rs:294-303` -/
def parseColTypeArg (pair : Pair) : Rs (List Value) :=
  pair.children.foldlM (init := ([] : List Value)) fun acc p1 =>
    match p1.rule with
    | .value => do
      let v ← parseValue p1
      return acc ++ [v]
    | _ => throwRules [.value] p1

/-- The array-size fold of `parse_col_type`, `/repo/src/parser/mod.rs:262-274` -/
def parseColTypeArray (pair : Pair) : Rs (Option Nat) :=
  pair.children.foldlM (init := (none : Option Nat)) fun _ p3 =>
    match p3.rule with
    | .integer =>
      match parseUnsigned p3.text u32Max with
      | some n => .ok (some n)
      | none => throwMsg posOverflow p3
    | _ => throwRules [.integer] p3

/-- `parse_col_type`, `/repo/src/parser/mod.rs:240-292`. The accumulator carries `out` and the
local `schema`. -/
def parseColType (pair : Pair) : Rs ColumnType := do
  let r ← pair.children.foldlM
    (init := (({ span_range := pair.span, raw := pair.text } : ColumnType), (none : Option Ident)))
    fun (out, schema) p1 =>
      match p1.rule with
      | .ident => do
        let i ← parseIdent p1
        return (out, some i)
      | .col_type_quoted | .col_type_unquoted => do
        let out ← p1.children.foldlM (init := out) fun out p2 =>
          match p2.rule with
          | .var | .spaced_var =>
            .ok { out with type_name := .raw (buildTypeNameWithSchema schema p2) }
          | .col_type_arg => do
            let args ← parseColTypeArg p2
            return { out with args := args }
          | .col_type_array => do
            let val ← parseColTypeArray p2
            return { out with arrays := out.arrays ++ [val] }
          | _ => throwRules [.var, .spaced_var, .col_type_arg, .col_type_array] p2
        return (out, schema)
      | _ => throwRules [.col_type_quoted, .col_type_unquoted] p1
  return r.1

/-- `parse_ref_ident`, `/repo/src/parser/mod.rs:503-535`. The accumulator carries
`(tmp_tokens, out.compositions)`. -/
def parseRefIdent (pair : Pair) : Rs RefIdent := do
  let (tmpTokens, comps) ← pair.children.foldlM
    (init := (([] : List Ident), ([] : List Ident))) fun (toks, comps) p1 =>
      match p1.rule with
      | .ident => do
        let i ← parseIdent p1
        return (toks ++ [i], comps)
      | .ref_composition => do
        let comps ← p1.children.foldlM (init := comps) fun comps p2 =>
          match p2.rule with
          | .ident => do
            let i ← parseIdent p2
            return comps ++ [i]
          | _ => throwRules [.ident] p2
        return (toks, comps)
      | _ => throwRules [.ident, .ref_composition] p1
  match tmpTokens with
  | [table] =>
    return { span_range := pair.span, schema := none, table := table, compositions := comps }
  | [schema, table] =>
    return { span_range := pair.span, schema := some schema, table := table, compositions := comps }
  | _ => .panic .refIdent

/-- Message of `Relation::from_str`, `/repo/src/ast/refs.rs:52` -/
def invalidRelation (s : Str) : Str := k!"invalid relation symbol '" ++ s ++ k!"'"

/-- `parse_ref_inline`, `/repo/src/parser/mod.rs:479-501` -/
def parseRefInline (pair : Pair) : Rs RefInline :=
  pair.children.foldlM (init := ({ span_range := pair.span } : RefInline)) fun acc p1 =>
    match p1.rule with
    | .relation =>
      match Relation.fromStr p1.text with
      | some rel => .ok { acc with rel := rel }
      | none => throwMsg (invalidRelation p1.text) p1
    | .ref_ident => do
      let v ← parseRefIdent p1
      return { acc with rhs := v }
    | _ => throwRules [.relation, .ref_ident] p1

/-- One attribute of a column, `/repo/src/parser/mod.rs:319-330` -/
def applyColAttr (acc : ColumnSettings) (attr : Attribute) : ColumnSettings :=
  let key := attr.key.to_string
  let acc : ColumnSettings :=
    if key = k!"unique" then { acc with is_unique := true }
    else if key = k!"primary key" ∨ key = k!"pk" then { acc with is_pk := true }
    else if key = k!"null" then { acc with nullable := some .null }
    else if key = k!"not null" then { acc with nullable := some .notNull }
    else if key = k!"increment" then { acc with is_incremental := true }
    else if key = k!"default" then { acc with default := attr.value.map (·.value) }
    else if key = k!"note" then { acc with note := attr.value.map (·.value.toStr) }
    else acc
  { acc with attributes := acc.attributes ++ [attr] }

/-- `parse_col_settings`, `/repo/src/parser/mod.rs:305-342` -/
def parseColSettings (pair : Pair) : Rs ColumnSettings :=
  pair.children.foldlM (init := ({ span_range := pair.span } : ColumnSettings)) fun acc p1 =>
    match p1.rule with
    | .col_attribute =>
      p1.children.foldlM (init := acc) fun acc p2 =>
        match p2.rule with
        | .attribute => do
          let attr ← parseAttribute p2
          return applyColAttr acc attr
        | .ref_inline => do
          let r ← parseRefInline p2
          return { acc with refs := acc.refs ++ [r] }
        | _ => throwRules [.ref_inline, .attribute] p2
    | _ => throwRules [.col_attribute] p1

/-- `parse_table_col`, `/repo/src/parser/mod.rs:212-230` -/
def parseTableCol (pair : Pair) : Rs TableColumn :=
  pair.children.foldlM (init := ({ span_range := pair.span } : TableColumn)) fun acc p1 =>
    match p1.rule with
    | .ident => do
      let i ← parseIdent p1
      return { acc with name := i }
    | .col_type => do
      let t ← parseColType p1
      return { acc with type := t }
    | .col_settings => do
      let s ← parseColSettings p1
      return { acc with settings := some s }
    | _ => throwRules [.ident, .col_type, .col_settings] p1

/-- Message of `IndexesType::from_str`, `/repo/src/ast/indexes.rs:78` -/
def unsupportedIndexType (s : Str) : Str := k!"'" ++ s ++ k!"' type is not supported!"

/-- One attribute of an index definition, `/repo/src/parser/mod.rs:762-781`; `p1` is the attribute's
pair (for the error span). -/
def applyIndexAttr (acc : IndexesSettings) (attr : Attribute) (p1 : Pair) : Rs IndexesSettings := do
  let key := attr.key.to_string
  let acc : IndexesSettings ←
    if key = k!"unique" then .ok { acc with is_unique := true }
    else if key = k!"pk" then .ok { acc with is_pk := true }
    else if key = k!"type" then
      match attr.value with
      | some v =>
        match IndexesType.fromStr v.value.toStr with
        | some t => .ok { acc with type := some t }
        | none => throwMsg (unsupportedIndexType v.value.toStr) p1
      | none => .ok { acc with type := none }
    else if key = k!"name" then .ok { acc with name := attr.value.map (·.value.toStr) }
    else if key = k!"note" then .ok { acc with note := attr.value.map (·.value.toStr) }
    else .ok acc
  return { acc with attributes := acc.attributes ++ [attr] }

/-- `parse_indexes_settings`, `/repo/src/parser/mod.rs:751-788` -/
def parseIndexesSettings (pair : Pair) : Rs IndexesSettings :=
  pair.children.foldlM (init := ({ span_range := pair.span } : IndexesSettings)) fun acc p1 =>
    match p1.rule with
    | .attribute => do
      let attr ← parseAttribute p1
      applyIndexAttr acc attr p1
    | _ => throwRules [.attribute] p1

/-- `parse_indexes_ident`, `/repo/src/parser/mod.rs:718-749` -/
def parseIndexesIdent (pair : Pair) : Rs IndexesColumnType := do
  let p1 ← Rs.orPanic pair.children.head? .indexesIdent
  match p1.rule with
  | .ident => do
    let value ← parseIdent p1
    return .string value
  | .backquoted_quoted_string => do
    let p2 ← Rs.orPanic p1.children.head? .indexesIdent
    match p2.rule with
    | .backquoted_quoted_value =>
      return .expr { span_range := p1.span, raw := p1.text, value := .string p2.text }
    | _ => throwRules [.backquoted_quoted_value] p2
  | _ => throwRules [.ident, .backquoted_quoted_string] p1

/-- `parse_indexes_single_multi`, `/repo/src/parser/mod.rs:701-716` -/
def parseIndexesSingleMulti (pair : Pair) : Rs IndexesDef :=
  pair.children.foldlM (init := ({ span_range := pair.span } : IndexesDef)) fun acc p1 =>
    match p1.rule with
    | .indexes_ident => do
      let c ← parseIndexesIdent p1
      return { acc with cols := acc.cols ++ [c] }
    | .indexes_settings => do
      let s ← parseIndexesSettings p1
      return { acc with settings := some s }
    | _ => throwRules [.indexes_ident, .indexes_settings] p1

/-- `parse_indexes_block`, `/repo/src/parser/mod.rs:685-699` -/
def parseIndexesBlock (pair : Pair) : Rs IndexesBlock :=
  pair.children.foldlM (init := ({ span_range := pair.span } : IndexesBlock)) fun acc p1 =>
    match p1.rule with
    | .indexes_single | .indexes_multi => do
      let d ← parseIndexesSingleMulti p1
      return { acc with defs := acc.defs ++ [d] }
    | _ => throwRules [.indexes_single, .indexes_multi] p1

/-- `parse_indexes_decl`, `/repo/src/parser/mod.rs:673-683` -/
def parseIndexesDecl (pair : Pair) : Rs IndexesBlock := do
  let p1 ← Rs.orPanic pair.children.head? .indexesDecl
  match p1.rule with
  | .indexes_block => parseIndexesBlock p1
  | _ => throwRules [.indexes_block] p1

/-- `parse_table_decl`, `/repo/src/parser/mod.rs:143-195` -/
def parseTableDecl (pair : Pair) : Rs TableBlock :=
  pair.children.foldlM (init := ({ span_range := pair.span } : TableBlock)) fun acc p1 =>
    match p1.rule with
    | .decl_ident => do
      let (schema, name) ← parseDeclIdent p1
      return { acc with
        ident := { acc.ident with span_range := p1.span, name := name, schema := schema } }
    | .table_alias =>
      p1.children.foldlM (init := acc) fun acc p2 =>
        match p2.rule with
        | .ident => do
          let i ← parseIdent p2
          return { acc with ident := { acc.ident with alias := some i } }
        | _ => throwRules [.ident] p2
    | .table_block =>
      p1.children.foldlM (init := acc) fun acc p2 =>
        match p2.rule with
        | .table_col => do
          let c ← parseTableCol p2
          return { acc with cols := acc.cols ++ [c] }
        | .note_decl => do
          let n ← parseNoteDecl p2
          return { acc with note := some n }
        | .indexes_decl => do
          let i ← parseIndexesDecl p2
          return { acc with indexes := some i }
        | _ => throwRules [.table_col, .note_decl, .indexes_decl] p2
    | .block_settings => do
      let s ← parseTableSettings p1
      return { acc with settings := some s }
    | _ => throwRules [.decl_ident, .table_alias, .table_block, .block_settings] p1

/-- `parse_enum_value`, `/repo/src/parser/mod.rs:380-418` -/
def parseEnumValue (pair : Pair) : Rs EnumValue :=
  pair.children.foldlM (init := ({ span_range := pair.span } : EnumValue)) fun acc p1 =>
    match p1.rule with
    | .ident => do
      let i ← parseIdent p1
      return { acc with value := i }
    | .enum_settings => do
      let settings ← p1.children.foldlM
        (init := ({ span_range := p1.span } : EnumValueSettings)) fun settings p2 =>
          match p2.rule with
          | .attribute => do
            let attr ← parseAttribute p2
            let settings : EnumValueSettings :=
              if attr.key.to_string = k!"note" then
                { settings with note := attr.value.map (·.value.toStr) }
              else settings
            return { settings with attributes := settings.attributes ++ [attr] }
          | _ => throwRules [.attribute] p2
      return { acc with settings := some settings }
    | _ => throwRules [.ident, .enum_settings] p1

/-- `parse_enum_block`, `/repo/src/parser/mod.rs:368-378` -/
def parseEnumBlock (pair : Pair) : Rs (List EnumValue) :=
  pair.children.mapM fun p1 =>
    match p1.rule with
    | .enum_value => parseEnumValue p1
    | _ => throwRules [.enum_value] p1

/-- `parse_enum_decl`, `/repo/src/parser/mod.rs:344-366` -/
def parseEnumDecl (pair : Pair) : Rs EnumBlock :=
  pair.children.foldlM (init := ({ span_range := pair.span } : EnumBlock)) fun acc p1 =>
    match p1.rule with
    | .decl_ident => do
      let (schema, name) ← parseDeclIdent p1
      return { acc with ident := { span_range := p1.span, schema := schema, name := name } }
    | .enum_block => do
      let vs ← parseEnumBlock p1
      return { acc with values := vs }
    | _ => throwRules [.decl_ident, .enum_block] p1

/-- Message of `ReferentialAction::from_str`, `/repo/src/ast/refs.rs:85` -/
def invalidAction : Str := k!"invalid referential action"

/-- The value of an `update:`/`delete:` attribute, `/repo/src/parser/mod.rs:605-616,619-630` -/
def refAction (attr : Attribute) (p1 : Pair) : Rs (Option ReferentialAction) :=
  match attr.value with
  | some { value := .enum v, .. } =>
    match ReferentialAction.fromStr v with
    | some a => .ok (some a)
    | none => throwMsg invalidAction p1
  | _ => .ok none

/-- One attribute of a ref, `/repo/src/parser/mod.rs:603-635` -/
def applyRelAttr (acc : RefSettings) (attr : Attribute) (p1 : Pair) : Rs RefSettings := do
  let key := attr.key.to_string
  let acc : RefSettings ←
    if key = k!"update" then (refAction attr p1).bind fun a => .ok { acc with on_update := a }
    else if key = k!"delete" then (refAction attr p1).bind fun a => .ok { acc with on_delete := a }
    else .ok acc
  return { acc with attributes := acc.attributes ++ [attr] }

/-- `parse_rel_settings`, `/repo/src/parser/mod.rs:592-642` -/
def parseRelSettings (pair : Pair) : Rs RefSettings :=
  pair.children.foldlM (init := ({ span_range := pair.span } : RefSettings)) fun acc p1 =>
    match p1.rule with
    | .attribute => do
      let attr ← parseAttribute p1
      applyRelAttr acc attr p1
    | _ => throwRules [.attribute] p1

/-- `parse_ref_stmt`, `/repo/src/parser/mod.rs:448-477` -/
def parseRefStmt (pair : Pair) : Rs RefBlock :=
  pair.children.foldlM (init := ({ span_range := pair.span } : RefBlock)) fun acc p1 =>
    match p1.rule with
    | .relation =>
      match Relation.fromStr p1.text with
      | some rel => .ok { acc with rel := rel }
      | none => throwMsg (invalidRelation p1.text) p1
    | .ref_ident => do
      let value ← parseRefIdent p1
      if acc.rel = .undef then return { acc with lhs := value }
      else return { acc with rhs := value }
    | .rel_settings => do
      let s ← parseRelSettings p1
      return { acc with settings := some s }
    | _ => throwRules [.relation, .ref_ident, .rel_settings] p1

/-- Inner loop of `parse_ref_decl`, `/repo/src/parser/mod.rs:424-439`: returns at the first
`ref_stmt`, remembering the last `ident` before it. -/
def parseRefInner (name : Option Ident) : List Pair → Rs (Option RefBlock)
  | [] => .ok none
  | p2 :: ps =>
    match p2.rule with
    | .ref_stmt => do
      let o ← parseRefStmt p2
      return some { o with name := name }
    | .ident => do
      let i ← parseIdent p2
      parseRefInner (some i) ps
    | _ => throwRules [.ref_stmt, .ident] p2

/-- `parse_ref_decl`, `/repo/src/parser/mod.rs:420-446` -/
def parseRefDecl (pair : Pair) : Rs RefBlock :=
  go pair.children
where
  go : List Pair → Rs RefBlock
    | [] => .panic .refDecl
    | p1 :: ps =>
      match p1.rule with
      | .ref_block | .ref_short => do
        match ← parseRefInner none p1.children with
        | some b => return b
        | none => go ps
      | _ => throwRules [.ref_block, .ref_short] p1

/-- `parse_table_group_decl`, `/repo/src/parser/mod.rs:537-575` -/
def parseTableGroupDecl (pair : Pair) : Rs TableGroupBlock :=
  pair.children.foldlM (init := ({ span_range := pair.span } : TableGroupBlock)) fun acc p1 =>
    match p1.rule with
    | .ident => do
      let i ← parseIdent p1
      return { acc with ident := i }
    | .table_group_block =>
      p1.children.foldlM (init := acc) fun acc p2 =>
        match p2.rule with
        | .decl_ident => do
          let (schema, name) ← parseDeclIdent p2
          return { acc with
            items := acc.items ++ [{ span_range := p2.span, schema := schema, ident_alias := name }] }
        | .note_decl => do
          let n ← parseNoteDecl p2
          return { acc with note := some n }
        | _ => throwRules [.decl_ident, .note_decl] p2
    | .block_settings => do
      let s ← parseTableGroupSettings p1
      return { acc with settings := some s }
    | _ => throwRules [.ident, .table_group_block, .block_settings] p1

/-- `parse_schema`, `/repo/src/parser/mod.rs:68-100` -/
def parseSchema (pair : Pair) (input : Str) : Rs SchemaBlock :=
  pair.children.foldlM (init := ({ span_range := pair.span, input := input } : SchemaBlock))
    fun acc p1 =>
      match p1.rule with
      | .project_decl => do
        let b ← parseProjectDecl p1
        return { acc with blocks := acc.blocks ++ [.project b] }
      | .table_decl => do
        let b ← parseTableDecl p1
        return { acc with blocks := acc.blocks ++ [.table b] }
      | .enum_decl => do
        let b ← parseEnumDecl p1
        return { acc with blocks := acc.blocks ++ [.enum b] }
      | .ref_decl => do
        let b ← parseRefDecl p1
        return { acc with blocks := acc.blocks ++ [.ref b] }
      | .note_decl => do
        let b ← parseNoteDecl p1
        return { acc with blocks := acc.blocks ++ [.note b] }
      | .table_group_decl => do
        let b ← parseTableGroupDecl p1
        return { acc with blocks := acc.blocks ++ [.tableGroup b] }
      | .EOI => .ok acc
      | _ => throwRules [.project_decl, .table_decl, .enum_decl, .ref_decl, .table_group_decl] p1

/-- `parse` = the public `parse_dbml_unchecked`, `/repo/src/parser/mod.rs:57-66` -/
def parseDbmlUnchecked (input : Str) : Rs SchemaBlock :=
  match pestParse input with
  | .fail => .err .syntax
  | .diverge => .diverge
  | .ok _ _ pairs => do
    let pair ← Rs.orPanic pairs.head? .parse
    match pair.rule with
    | .schema => parseSchema pair input
    | _ => throwRules [.schema] pair

end Dbml

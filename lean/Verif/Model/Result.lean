import Verif.Model.Peg
import Verif.Model.Ast

/-!
# Results, errors and panics

`Rs α` is the outcome of a Rust function returning `Result<α, pest::error::Error<Rule>>`:
a value, an error value, a panic (`unreachable!`, `unwrap` on `None`, out-of-bounds indexing), or
never returning.
-/

namespace Dbml

/-- `/repo/src/analyzer/err.rs:116-134` -/
inductive InvalidForeignKeyErr where
  | nitherUniqueKeyNorPrimaryKey
  | nitherUniqueKeyNorPrimaryKeyComposite
  | one2One
  | one2OneComposite
  | many2Many
  | many2ManyComposite
deriving DecidableEq, Repr

/-- `/repo/src/analyzer/err.rs:18-114` -/
inductive Err where
  | nullablePrimaryKey
  | arrayPrimaryKey
  | invalidIndexesSetting
  | duplicateAttributeKey
  | duplicatePropertyKey
  | duplicateProjectSetting
  | duplicatePrimaryKey
  | duplicateUniqueKey
  | duplicateIndexKey
  | duplicateTableName
  | duplicateColumnName
  | conflictRelation
  | duplicateEnumName
  | duplicateEnumValue
  | duplicateTableGroupName
  | duplicateTableGroupItem
  | duplicateAlias
  | conflictNullableSetting
  | projectSettingNotFound
  | emptyIndexesBlock
  | invalidEnum
  | invalidDataType
  | invalidDataTypeArguments (raw_type : Str) (n_arg : Nat)
  | invalidArgumentValue
  | invalidDefaultValue (raw_value raw_type : Str)
  | defaultNullInNonNullable
  | dataTypeExceeded (raw_type : Str)
  | tableGroupNotFound
  | schemaNotFound
  | tableNotFound
  | columnNotFound
  | enumNotFound
  | enumValueNotFound
  | mismatchedForeignKeyType (r_ident l_ident r_type l_type : Str)
  | invalidForeignKey (err : InvalidForeignKeyErr)
  | mismatchedCompositeForeignKey
deriving DecidableEq, Repr

/-- The payload of the returned `pest::error::Error<Rule>`.
`syntax` is an error produced by pest itself (its position and expected rules are functions of the
text: `Model/ErrorPos.lean`, `Model/Expected.lean`); `rules` is `throw_rules` (`/repo/src/parser/err.rs:13-21`); `msg` is `throw_msg`
(`/repo/src/parser/err.rs:23-30`); `semantic` is `throw_err` (`/repo/src/analyzer/err.rs:136-145`),
keeping the structured `Err` instead of only its `Display` text. -/
inductive PError where
  | syntax
  | rules (positives : List Rule) (span : Span)
  | msg (message : Str) (span : Span)
  | semantic (e : Err) (span : Span)
deriving DecidableEq, Repr

/-- Where a Rust panic is raised.
See each site (`/repo/src/parser/mod.rs`, `/repo/src/analyzer`). -/
inductive PanicSite where
  /-- `/repo/src/parser/mod.rs:60` -/
  | parse
  /-- `/repo/src/parser/mod.rs:445` -/
  | refDecl
  /-- `/repo/src/parser/mod.rs:531` -/
  | refIdent
  /-- `/repo/src/parser/mod.rs:670` -/
  | noteDecl
  /-- `/repo/src/parser/mod.rs:677` -/
  | indexesDecl
  /-- `/repo/src/parser/mod.rs:722,734` -/
  | indexesIdent
  /-- `/repo/src/parser/mod.rs:822,834` -/
  | value
  /-- `/repo/src/parser/mod.rs:893` -/
  | declIdent
  /-- `/repo/src/parser/mod.rs:903` -/
  | ident
  /-- `/repo/src/analyzer/err.rs:137`: `Span::new(..).unwrap()` -/
  | spanUnwrap
  /-- `/repo/src/analyzer/mod.rs:249,318` -/
  | typeNameNotRaw
  /-- `/repo/src/analyzer/mod.rs:302,328` -/
  | defaultValueMissing
  /-- `/repo/src/analyzer/mod.rs:342,347`: `col.r#type.args[0]` -/
  | argsIndex
deriving DecidableEq, Repr

/-- Outcome of a fallible Rust call.
`/repo/src/parser/err.rs:11` (`ParserResult`), `/repo/src/analyzer/err.rs:16` (`AnalyzerResult`). -/
inductive Rs (α : Type) where
  | ok (a : α)
  | err (e : PError)
  | panic (site : PanicSite)
  | diverge
deriving DecidableEq, Repr

namespace Rs

/-- The `?` operator.
`/repo/src/parser/mod.rs:58` and throughout. -/
def bind {α β : Type} (x : Rs α) (f : α → Rs β) : Rs β :=
  match x with
  | .ok a => f a
  | .err e => .err e
  | .panic s => .panic s
  | .diverge => .diverge

/-- `?` and `Ok(..)` of Rust results, `/repo/src/parser/mod.rs:58` and throughout. -/
instance : Monad Rs where
  pure := .ok
  bind := Rs.bind

/-- `Option::ok_or_else(|| unreachable!(..))?`
`/repo/src/parser/mod.rs:60,677,722,734,822,834,903`. -/
def orPanic {α : Type} (o : Option α) (s : PanicSite) : Rs α :=
  match o with
  | some a => .ok a
  | none => .panic s

end Rs

/-- `throw_rules`, `/repo/src/parser/err.rs:13-21` -/
def throwRules {α : Type} (rules : List Rule) (p : Pair) : Rs α := .err (.rules rules p.span)

/-- `throw_msg`, `/repo/src/parser/err.rs:23-30` -/
def throwMsg {α : Type} (m : Str) (p : Pair) : Rs α := .err (.msg m p.span)

/-- `throw_err`, `/repo/src/analyzer/err.rs:136-145`: builds a `Span` over `input` (and panics if
that is not possible), then returns the error. -/
def throwErr {α : Type} (e : Err) (span : Span) (input : Str) : Rs α :=
  if span.valid input then .err (.semantic e span) else .panic .spanUnwrap

end Dbml

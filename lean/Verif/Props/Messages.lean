import Verif.Model.Message
import Verif.Spec.Messages
import Verif.Props.Validity

/-!
# C53: error messages identify the error
-/

namespace Dbml.Props

open Dbml Syntax Spec

/-- Two semantic errors are of the same kind: the same constructor, whatever the names and texts quoted. -/
def SameKind : Err → Err → Prop
  | .invalidDataTypeArguments _ _, .invalidDataTypeArguments _ _ => True
  | .invalidDefaultValue _ _, .invalidDefaultValue _ _ => True
  | .dataTypeExceeded _, .dataTypeExceeded _ => True
  | .mismatchedForeignKeyType _ _ _ _, .mismatchedForeignKeyType _ _ _ _ => True
  | a, b => a = b

/-- The beginning of a message, long enough to tell the kinds apart. -/
def keyOf (m : Str) : Str := if k!"Invalid foreign key: ".isPrefixOf m then k!"Invalid foreign key: " else m.take 23

/-- The beginnings of the messages, long enough to tell them apart. -/
def heads : List Str :=
  ([.nullablePrimaryKey, .arrayPrimaryKey, .invalidIndexesSetting, .duplicateAttributeKey, .duplicatePropertyKey,
    .duplicateProjectSetting, .duplicatePrimaryKey, .duplicateUniqueKey, .duplicateIndexKey, .duplicateTableName,
    .duplicateColumnName, .conflictRelation, .duplicateEnumName, .duplicateEnumValue, .duplicateTableGroupName,
    .duplicateTableGroupItem, .duplicateAlias, .conflictNullableSetting, .projectSettingNotFound, .emptyIndexesBlock,
    .invalidEnum, .invalidDataType, .invalidDataTypeArguments [] 0, .invalidArgumentValue, .invalidDefaultValue [] [],
    .defaultNullInNonNullable, .dataTypeExceeded [], .tableGroupNotFound, .schemaNotFound, .tableNotFound,
    .columnNotFound, .enumNotFound, .enumValueNotFound, .mismatchedForeignKeyType [] [] [] [],
    .invalidForeignKey .nitherUniqueKeyNorPrimaryKey, .mismatchedCompositeForeignKey] : List Err).map
    fun e => keyOf e.display

/-- The number of a kind. -/
def number (e : Err) : Nat := heads.idxOf (keyOf e.display)

theorem number_eq : ∀ e : Err, number e = e.ctorIdx
  | .invalidForeignKey err => by cases err <;> decide
  | .invalidDataTypeArguments _ _ | .invalidDefaultValue _ _ | .dataTypeExceeded _
  | .mismatchedForeignKeyType _ _ _ _ => rfl
  | .nullablePrimaryKey | .arrayPrimaryKey | .invalidIndexesSetting | .duplicateAttributeKey | .duplicatePropertyKey
  | .duplicateProjectSetting | .duplicatePrimaryKey | .duplicateUniqueKey | .duplicateIndexKey | .duplicateTableName
  | .duplicateColumnName | .conflictRelation | .duplicateEnumName | .duplicateEnumValue | .duplicateTableGroupName
  | .duplicateTableGroupItem | .duplicateAlias | .conflictNullableSetting | .projectSettingNotFound | .emptyIndexesBlock
  | .invalidEnum | .invalidDataType | .invalidArgumentValue
  | .defaultNullInNonNullable | .tableGroupNotFound | .schemaNotFound | .tableNotFound
  | .columnNotFound | .enumNotFound | .enumValueNotFound | .mismatchedCompositeForeignKey => by decide

/-- **C53.** Errors with the same message are of the same kind. -/
theorem C53_message_tells_kind (e e' : Err) (h : e.display = e'.display) : SameKind e e' := by
  have hn : e.ctorIdx = e'.ctorIdx := by rw [← number_eq, ← number_eq, number, number, h]
  cases e with
  | invalidForeignKey a =>
    cases e' with
    | invalidForeignKey b => cases a <;> cases b <;> first | rfl | exact absurd h (by decide)
    | _ => simp [Err.ctorIdx] at hn
  | _ => cases e' <;> first | rfl | exact trivial | (simp [Err.ctorIdx] at hn)

/-- **C53.** Unless the message quotes a name or a text, it determines the error. -/
theorem C53_message_determines (e e' : Err) (h : e.display = e'.display) :
    e = e' ∨ (∃ r n, e = .invalidDataTypeArguments r n) ∨ (∃ v r, e = .invalidDefaultValue v r) ∨
      (∃ r, e = .dataTypeExceeded r) ∨ ∃ a b c d, e = .mismatchedForeignKeyType a b c d := by
  have := C53_message_tells_kind e e' h
  cases e <;> first
    | exact .inl this
    | exact .inr (.inl ⟨_, _, rfl⟩)
    | exact .inr (.inr (.inl ⟨_, _, rfl⟩))
    | exact .inr (.inr (.inr (.inl ⟨_, rfl⟩)))
    | exact .inr (.inr (.inr (.inr ⟨_, _, _, _, rfl⟩)))
    | (cases e' <;> first | exact .inl this | exact .inl rfl)

/-- The message of a semantic error begins with a capital letter. -/
theorem display_upper (e : Err) : ∃ c cs, e.display = c :: cs ∧ c.isUpper = true := by
  cases e <;> exact ⟨_, _, rfl, by decide⟩

/-- **C53.** The message of a semantic error is its format string with the quoted names, types, values and numbers filled
in. -/
theorem C53_texts (e : Err) : e.display = fill (template e).1 (template e).2 := by
  cases e with
  | invalidForeignKey err => cases err <;> decide
  | invalidDataTypeArguments r n => simp [Err.display, template, fill, numeral]
  | invalidDefaultValue v r => simp [Err.display, template, fill]
  | dataTypeExceeded r => simp [Err.display, template, fill]
  | mismatchedForeignKeyType a b c d => simp [Err.display, template, fill]
  | _ => decide

/-- What kind of error it is: a syntax error, an error in reading a literal or setting, or a semantic error of some
kind. -/
def SameSort : PError → PError → Prop
  | .syntax, .syntax => True
  | .msg m _, .msg m' _ => m = m'
  | .semantic e _, .semantic e' _ => SameKind e e'
  | _, _ => False

/-- **C53.** The message of an error of `parse_dbml` tells what kind of error it is: errors with the same message
(or both without one) are of the same kind, whatever the two texts. -/
theorem C53_messages_identify_errors {t t' : Str} {x x' : PError} (h : parseDbml t = .err x)
    (h' : parseDbml t' = .err x') (hm : x.message = x'.message) : SameSort x x' := by
  have key : ∀ {t : Str} {x : PError}, parseDbml t = .err x →
      x = .syntax ∨ (∃ m sp, x = .msg m sp ∧ ∀ c cs, m = c :: cs → c.isUpper = false) ∨ ∃ e sp, x = .semantic e sp := by
    intro t x h
    rcases C35_errors_truthful h with h | ⟨s, er, sp, -, rfl, -⟩
    · rcases C03_parse_errors h with rfl | hr
      · exact .inl rfl
      · refine .inr (.inl ?_)
        cases hr with
        | intTooLarge => exact ⟨_, _, rfl, by rintro _ _ ⟨⟩; decide⟩
        | arrayTooLarge => exact ⟨_, _, rfl, by rintro _ _ ⟨⟩; decide⟩
        | badAction => exact ⟨_, _, rfl, by rintro _ _ ⟨⟩; decide⟩
        | badIndexType => exact ⟨_, _, rfl, by rintro _ _ ⟨⟩; decide⟩
    · exact .inr (.inr ⟨_, _, rfl⟩)
  rcases key h with rfl | ⟨m, sp, rfl, hl⟩ | ⟨e, sp, rfl⟩ <;> rcases key h' with rfl | ⟨m', sp', rfl, hl'⟩ | ⟨e', sp', rfl⟩ <;>
    simp only [PError.message, Option.some.injEq, reduceCtorEq] at hm
  · trivial
  · exact hm
  · obtain ⟨c, cs, h1, h2⟩ := display_upper e'
    rw [hl c cs (hm.trans h1)] at h2; cases h2
  · obtain ⟨c, cs, h1, h2⟩ := display_upper e
    rw [hl' c cs (hm.symm.trans h1)] at h2; cases h2
  · exact C53_message_tells_kind e e' hm

/-- **C53.** Two kinds of errors that the code declares are never reported. -/
theorem C53_never_reported {t : Str} {e : Err} {sp : Span} (h : parseDbml t = .err (.semantic e sp)) :
    e ≠ .invalidDataType ∧ e ≠ .tableGroupNotFound := by
  rcases C35_errors_truthful h with h | ⟨s, er, sp', -, he, hf, -⟩
  · exact absurd rfl ((C03_no_internal_errors h).2.1 e sp)
  · cases he
    rcases hf.defect with (h | ⟨-, h⟩ | ⟨-, h⟩ | ⟨-, h⟩ | ⟨-, h⟩) | ⟨c, -, h⟩ | ⟨r, -, h⟩ <;> cases h <;>
      exact ⟨nofun, nofun⟩

/-- A witness: a message as the user sees it. -/
example : (match parseDbml k!"Project p {} Table t { a varchar(2) [default: 'abc'] }" with
      | .err x => x.message
      | _ => none) =
    some k!"Invalid default value: the defualt value 'abc' is not associated with 'varchar(2)'" := by decide +kernel

/-- The quoted texts cannot always be told apart: two different errors with one message. -/
example : Err.invalidDefaultValue k!"a" k!"b' is not associated with 'c" ≠
      .invalidDefaultValue k!"a' is not associated with 'b" k!"c" ∧
    (Err.invalidDefaultValue k!"a" k!"b' is not associated with 'c").display =
      (Err.invalidDefaultValue k!"a' is not associated with 'b" k!"c").display := by decide

end Dbml.Props

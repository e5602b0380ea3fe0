import Verif.Spec.Size
import Verif.Spec.MapSpan

/-!
# The size of an AST does not depend on positions
-/

namespace Dbml.Size

variable (f : Span → Span)

theorem list_map {α β : Type} (g : α → β) (h : β → Nat) (h' : α → Nat) (e : ∀ a, h (g a) = h' a) (l : List α) :
    list h (l.map g) = list h' l := by
  unfold list
  rw [List.map_map]
  congr 1
  exact List.map_congr_left fun a _ => e a

theorem opt_map {α β : Type} (g : α → β) (h : β → Nat) (h' : α → Nat) (e : ∀ a, h (g a) = h' a) (o : Option α) :
    opt h (o.map g) = opt h' o := by
  cases o with
  | none => rfl
  | some a => exact e a

theorem ident_span (x : Ident) : ident (x.mapSpan f) = ident x := rfl
theorem literal_span (x : Literal) : literal (x.mapSpan f) = literal x := rfl
theorem attr_span (x : Attribute) : attr (x.mapSpan f) = attr x := by
  simp only [attr, Attribute.mapSpan, ident_span, opt_map _ _ _ (literal_span f)]
theorem property_span (x : Property) : property (x.mapSpan f) = property x := rfl
theorem note_span (x : NoteBlock) : note (x.mapSpan f) = note x := rfl
theorem project_span (x : ProjectBlock) : project (x.mapSpan f) = project x := by
  simp only [project, ProjectBlock.mapSpan, ident_span, opt_map _ _ _ (note_span f), list_map _ _ _ (property_span f)]
theorem refIdent_span (x : RefIdent) : refIdent (x.mapSpan f) = refIdent x := by
  simp only [refIdent, RefIdent.mapSpan, ident_span, opt_map _ _ _ (ident_span f), list_map _ _ _ (ident_span f)]
theorem refInline_span (x : RefInline) : refInline (x.mapSpan f) = refInline x := by
  simp only [refInline, RefInline.mapSpan, refIdent_span]
theorem refSettings_span (x : RefSettings) : refSettings (x.mapSpan f) = refSettings x := by
  simp only [refSettings, RefSettings.mapSpan, list_map _ _ _ (attr_span f)]
theorem ref_span (x : RefBlock) : ref (x.mapSpan f) = ref x := by
  simp only [ref, RefBlock.mapSpan, refIdent_span, opt_map _ _ _ (ident_span f), opt_map _ _ _ (refSettings_span f)]
theorem indexCol_span (x : IndexesColumnType) : indexCol (x.mapSpan f) = indexCol x := by cases x <;> rfl
theorem indexSettings_span (x : IndexesSettings) : indexSettings (x.mapSpan f) = indexSettings x := by
  simp only [indexSettings, IndexesSettings.mapSpan, list_map _ _ _ (attr_span f)]
theorem indexDef_span (x : IndexesDef) : indexDef (x.mapSpan f) = indexDef x := by
  simp only [indexDef, IndexesDef.mapSpan, list_map _ _ _ (indexCol_span f), opt_map _ _ _ (indexSettings_span f)]
theorem indexes_span (x : IndexesBlock) : indexes (x.mapSpan f) = indexes x := by
  simp only [indexes, IndexesBlock.mapSpan, list_map _ _ _ (indexDef_span f)]
theorem enumSettings_span (x : EnumValueSettings) : enumSettings (x.mapSpan f) = enumSettings x := by
  simp only [enumSettings, EnumValueSettings.mapSpan, list_map _ _ _ (attr_span f)]
theorem enumValue_span (x : EnumValue) : enumValue (x.mapSpan f) = enumValue x := by
  simp only [enumValue, EnumValue.mapSpan, ident_span, opt_map _ _ _ (enumSettings_span f)]
theorem enumIdent_span (x : EnumIdent) : enumIdent (x.mapSpan f) = enumIdent x := by
  simp only [enumIdent, EnumIdent.mapSpan, ident_span, opt_map _ _ _ (ident_span f)]
theorem enum_span (x : EnumBlock) : enum (x.mapSpan f) = enum x := by
  simp only [enum, EnumBlock.mapSpan, enumIdent_span, list_map _ _ _ (enumValue_span f)]
theorem columnType_span (x : ColumnType) : columnType (x.mapSpan f) = columnType x := rfl
theorem columnSettings_span (x : ColumnSettings) : columnSettings (x.mapSpan f) = columnSettings x := by
  simp only [columnSettings, ColumnSettings.mapSpan, list_map _ _ _ (attr_span f), list_map _ _ _ (refInline_span f)]
theorem column_span (x : TableColumn) : column (x.mapSpan f) = column x := by
  simp only [column, TableColumn.mapSpan, ident_span, columnType_span, opt_map _ _ _ (columnSettings_span f)]
theorem tableIdent_span (x : TableIdent) : tableIdent (x.mapSpan f) = tableIdent x := by
  simp only [tableIdent, TableIdent.mapSpan, ident_span, opt_map _ _ _ (ident_span f)]
theorem tableSettings_span (x : TableSettings) : tableSettings (x.mapSpan f) = tableSettings x := by
  simp only [tableSettings, TableSettings.mapSpan, list_map _ _ _ (attr_span f)]
theorem table_span (x : TableBlock) : table (x.mapSpan f) = table x := by
  simp only [table, TableBlock.mapSpan, list_map _ _ _ (column_span f), tableIdent_span, opt_map _ _ _ (note_span f),
    opt_map _ _ _ (indexes_span f), opt_map _ _ _ (tableSettings_span f)]
theorem groupItem_span (x : TableGroupItem) : groupItem (x.mapSpan f) = groupItem x := by
  simp only [groupItem, TableGroupItem.mapSpan, ident_span, opt_map _ _ _ (ident_span f)]
theorem groupSettings_span (x : TableGroupSettings) : groupSettings (x.mapSpan f) = groupSettings x := by
  simp only [groupSettings, TableGroupSettings.mapSpan, list_map _ _ _ (attr_span f)]
theorem tableGroup_span (x : TableGroupBlock) : tableGroup (x.mapSpan f) = tableGroup x := by
  simp only [tableGroup, TableGroupBlock.mapSpan, ident_span, opt_map _ _ _ (note_span f), list_map _ _ _ (groupItem_span f),
    opt_map _ _ _ (groupSettings_span f)]
theorem block_span (x : TopLevelBlock) : block (x.mapSpan f) = block x := by
  cases x <;> simp only [block, TopLevelBlock.mapSpan, project_span, table_span, tableGroup_span, note_span, ref_span, enum_span]

theorem blocks_span (l : List TopLevelBlock) : list block (l.map (·.mapSpan f)) = list block l :=
  list_map _ _ _ (block_span f) l

end Dbml.Size

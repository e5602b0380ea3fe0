import Verif.Spec.MapSpan

/-!
# Relabelling with the identity
-/

namespace Dbml

theorem Ident_mapSpan_id (x : Ident) : x.mapSpan id = x := by cases x; simp [Ident.mapSpan]
theorem Literal_mapSpan_id (x : Literal) : x.mapSpan id = x := by cases x; simp [Literal.mapSpan, Ident_mapSpan_id]
theorem Attribute_mapSpan_id (x : Attribute) : x.mapSpan id = x := by cases x; simp [Attribute.mapSpan, Ident_mapSpan_id, Literal_mapSpan_id]
theorem Property_mapSpan_id (x : Property) : x.mapSpan id = x := by cases x; simp [Property.mapSpan, Ident_mapSpan_id, Literal_mapSpan_id, Attribute_mapSpan_id]
theorem NoteBlock_mapSpan_id (x : NoteBlock) : x.mapSpan id = x := by cases x; simp [NoteBlock.mapSpan, Ident_mapSpan_id, Literal_mapSpan_id, Attribute_mapSpan_id, Property_mapSpan_id]
theorem ProjectBlock_mapSpan_id (x : ProjectBlock) : x.mapSpan id = x := by cases x; simp [ProjectBlock.mapSpan, Ident_mapSpan_id, Literal_mapSpan_id, Attribute_mapSpan_id, Property_mapSpan_id, NoteBlock_mapSpan_id]
theorem RefIdent_mapSpan_id (x : RefIdent) : x.mapSpan id = x := by cases x; simp [RefIdent.mapSpan, Ident_mapSpan_id, Literal_mapSpan_id, Attribute_mapSpan_id, Property_mapSpan_id, NoteBlock_mapSpan_id, ProjectBlock_mapSpan_id]
theorem RefInline_mapSpan_id (x : RefInline) : x.mapSpan id = x := by cases x; simp [RefInline.mapSpan, Ident_mapSpan_id, Literal_mapSpan_id, Attribute_mapSpan_id, Property_mapSpan_id, NoteBlock_mapSpan_id, ProjectBlock_mapSpan_id, RefIdent_mapSpan_id]
theorem RefSettings_mapSpan_id (x : RefSettings) : x.mapSpan id = x := by cases x; simp [RefSettings.mapSpan, Ident_mapSpan_id, Literal_mapSpan_id, Attribute_mapSpan_id, Property_mapSpan_id, NoteBlock_mapSpan_id, ProjectBlock_mapSpan_id, RefIdent_mapSpan_id, RefInline_mapSpan_id]
theorem RefBlock_mapSpan_id (x : RefBlock) : x.mapSpan id = x := by cases x; simp [RefBlock.mapSpan, Ident_mapSpan_id, Literal_mapSpan_id, Attribute_mapSpan_id, Property_mapSpan_id, NoteBlock_mapSpan_id, ProjectBlock_mapSpan_id, RefIdent_mapSpan_id, RefInline_mapSpan_id, RefSettings_mapSpan_id]
theorem IndexesColumnType_mapSpan_id (x : IndexesColumnType) : x.mapSpan id = x := by cases x <;> simp [IndexesColumnType.mapSpan, Ident_mapSpan_id, Literal_mapSpan_id, Attribute_mapSpan_id, Property_mapSpan_id, NoteBlock_mapSpan_id, ProjectBlock_mapSpan_id, RefIdent_mapSpan_id, RefInline_mapSpan_id, RefSettings_mapSpan_id, RefBlock_mapSpan_id]
theorem IndexesSettings_mapSpan_id (x : IndexesSettings) : x.mapSpan id = x := by cases x; simp [IndexesSettings.mapSpan, Ident_mapSpan_id, Literal_mapSpan_id, Attribute_mapSpan_id, Property_mapSpan_id, NoteBlock_mapSpan_id, ProjectBlock_mapSpan_id, RefIdent_mapSpan_id, RefInline_mapSpan_id, RefSettings_mapSpan_id, RefBlock_mapSpan_id, IndexesColumnType_mapSpan_id]
theorem IndexesDef_mapSpan_id (x : IndexesDef) : x.mapSpan id = x := by cases x; simp [IndexesDef.mapSpan, Ident_mapSpan_id, Literal_mapSpan_id, Attribute_mapSpan_id, Property_mapSpan_id, NoteBlock_mapSpan_id, ProjectBlock_mapSpan_id, RefIdent_mapSpan_id, RefInline_mapSpan_id, RefSettings_mapSpan_id, RefBlock_mapSpan_id, IndexesColumnType_mapSpan_id, IndexesSettings_mapSpan_id]
theorem IndexesBlock_mapSpan_id (x : IndexesBlock) : x.mapSpan id = x := by cases x; simp [IndexesBlock.mapSpan, Ident_mapSpan_id, Literal_mapSpan_id, Attribute_mapSpan_id, Property_mapSpan_id, NoteBlock_mapSpan_id, ProjectBlock_mapSpan_id, RefIdent_mapSpan_id, RefInline_mapSpan_id, RefSettings_mapSpan_id, RefBlock_mapSpan_id, IndexesColumnType_mapSpan_id, IndexesSettings_mapSpan_id, IndexesDef_mapSpan_id]
theorem EnumValueSettings_mapSpan_id (x : EnumValueSettings) : x.mapSpan id = x := by cases x; simp [EnumValueSettings.mapSpan, Ident_mapSpan_id, Literal_mapSpan_id, Attribute_mapSpan_id, Property_mapSpan_id, NoteBlock_mapSpan_id, ProjectBlock_mapSpan_id, RefIdent_mapSpan_id, RefInline_mapSpan_id, RefSettings_mapSpan_id, RefBlock_mapSpan_id, IndexesColumnType_mapSpan_id, IndexesSettings_mapSpan_id, IndexesDef_mapSpan_id, IndexesBlock_mapSpan_id]
theorem EnumValue_mapSpan_id (x : EnumValue) : x.mapSpan id = x := by cases x; simp [EnumValue.mapSpan, Ident_mapSpan_id, Literal_mapSpan_id, Attribute_mapSpan_id, Property_mapSpan_id, NoteBlock_mapSpan_id, ProjectBlock_mapSpan_id, RefIdent_mapSpan_id, RefInline_mapSpan_id, RefSettings_mapSpan_id, RefBlock_mapSpan_id, IndexesColumnType_mapSpan_id, IndexesSettings_mapSpan_id, IndexesDef_mapSpan_id, IndexesBlock_mapSpan_id, EnumValueSettings_mapSpan_id]
theorem EnumIdent_mapSpan_id (x : EnumIdent) : x.mapSpan id = x := by cases x; simp [EnumIdent.mapSpan, Ident_mapSpan_id, Literal_mapSpan_id, Attribute_mapSpan_id, Property_mapSpan_id, NoteBlock_mapSpan_id, ProjectBlock_mapSpan_id, RefIdent_mapSpan_id, RefInline_mapSpan_id, RefSettings_mapSpan_id, RefBlock_mapSpan_id, IndexesColumnType_mapSpan_id, IndexesSettings_mapSpan_id, IndexesDef_mapSpan_id, IndexesBlock_mapSpan_id, EnumValueSettings_mapSpan_id, EnumValue_mapSpan_id]
theorem EnumBlock_mapSpan_id (x : EnumBlock) : x.mapSpan id = x := by cases x; simp [EnumBlock.mapSpan, Ident_mapSpan_id, Literal_mapSpan_id, Attribute_mapSpan_id, Property_mapSpan_id, NoteBlock_mapSpan_id, ProjectBlock_mapSpan_id, RefIdent_mapSpan_id, RefInline_mapSpan_id, RefSettings_mapSpan_id, RefBlock_mapSpan_id, IndexesColumnType_mapSpan_id, IndexesSettings_mapSpan_id, IndexesDef_mapSpan_id, IndexesBlock_mapSpan_id, EnumValueSettings_mapSpan_id, EnumValue_mapSpan_id, EnumIdent_mapSpan_id]
theorem ColumnType_mapSpan_id (x : ColumnType) : x.mapSpan id = x := by cases x; simp [ColumnType.mapSpan, Ident_mapSpan_id, Literal_mapSpan_id, Attribute_mapSpan_id, Property_mapSpan_id, NoteBlock_mapSpan_id, ProjectBlock_mapSpan_id, RefIdent_mapSpan_id, RefInline_mapSpan_id, RefSettings_mapSpan_id, RefBlock_mapSpan_id, IndexesColumnType_mapSpan_id, IndexesSettings_mapSpan_id, IndexesDef_mapSpan_id, IndexesBlock_mapSpan_id, EnumValueSettings_mapSpan_id, EnumValue_mapSpan_id, EnumIdent_mapSpan_id, EnumBlock_mapSpan_id]
theorem ColumnSettings_mapSpan_id (x : ColumnSettings) : x.mapSpan id = x := by cases x; simp [ColumnSettings.mapSpan, Ident_mapSpan_id, Literal_mapSpan_id, Attribute_mapSpan_id, Property_mapSpan_id, NoteBlock_mapSpan_id, ProjectBlock_mapSpan_id, RefIdent_mapSpan_id, RefInline_mapSpan_id, RefSettings_mapSpan_id, RefBlock_mapSpan_id, IndexesColumnType_mapSpan_id, IndexesSettings_mapSpan_id, IndexesDef_mapSpan_id, IndexesBlock_mapSpan_id, EnumValueSettings_mapSpan_id, EnumValue_mapSpan_id, EnumIdent_mapSpan_id, EnumBlock_mapSpan_id, ColumnType_mapSpan_id]
theorem TableColumn_mapSpan_id (x : TableColumn) : x.mapSpan id = x := by cases x; simp [TableColumn.mapSpan, Ident_mapSpan_id, Literal_mapSpan_id, Attribute_mapSpan_id, Property_mapSpan_id, NoteBlock_mapSpan_id, ProjectBlock_mapSpan_id, RefIdent_mapSpan_id, RefInline_mapSpan_id, RefSettings_mapSpan_id, RefBlock_mapSpan_id, IndexesColumnType_mapSpan_id, IndexesSettings_mapSpan_id, IndexesDef_mapSpan_id, IndexesBlock_mapSpan_id, EnumValueSettings_mapSpan_id, EnumValue_mapSpan_id, EnumIdent_mapSpan_id, EnumBlock_mapSpan_id, ColumnType_mapSpan_id, ColumnSettings_mapSpan_id]
theorem TableIdent_mapSpan_id (x : TableIdent) : x.mapSpan id = x := by cases x; simp [TableIdent.mapSpan, Ident_mapSpan_id, Literal_mapSpan_id, Attribute_mapSpan_id, Property_mapSpan_id, NoteBlock_mapSpan_id, ProjectBlock_mapSpan_id, RefIdent_mapSpan_id, RefInline_mapSpan_id, RefSettings_mapSpan_id, RefBlock_mapSpan_id, IndexesColumnType_mapSpan_id, IndexesSettings_mapSpan_id, IndexesDef_mapSpan_id, IndexesBlock_mapSpan_id, EnumValueSettings_mapSpan_id, EnumValue_mapSpan_id, EnumIdent_mapSpan_id, EnumBlock_mapSpan_id, ColumnType_mapSpan_id, ColumnSettings_mapSpan_id, TableColumn_mapSpan_id]
theorem TableSettings_mapSpan_id (x : TableSettings) : x.mapSpan id = x := by cases x; simp [TableSettings.mapSpan, Ident_mapSpan_id, Literal_mapSpan_id, Attribute_mapSpan_id, Property_mapSpan_id, NoteBlock_mapSpan_id, ProjectBlock_mapSpan_id, RefIdent_mapSpan_id, RefInline_mapSpan_id, RefSettings_mapSpan_id, RefBlock_mapSpan_id, IndexesColumnType_mapSpan_id, IndexesSettings_mapSpan_id, IndexesDef_mapSpan_id, IndexesBlock_mapSpan_id, EnumValueSettings_mapSpan_id, EnumValue_mapSpan_id, EnumIdent_mapSpan_id, EnumBlock_mapSpan_id, ColumnType_mapSpan_id, ColumnSettings_mapSpan_id, TableColumn_mapSpan_id, TableIdent_mapSpan_id]
theorem TableBlock_mapSpan_id (x : TableBlock) : x.mapSpan id = x := by cases x; simp [TableBlock.mapSpan, Ident_mapSpan_id, Literal_mapSpan_id, Attribute_mapSpan_id, Property_mapSpan_id, NoteBlock_mapSpan_id, ProjectBlock_mapSpan_id, RefIdent_mapSpan_id, RefInline_mapSpan_id, RefSettings_mapSpan_id, RefBlock_mapSpan_id, IndexesColumnType_mapSpan_id, IndexesSettings_mapSpan_id, IndexesDef_mapSpan_id, IndexesBlock_mapSpan_id, EnumValueSettings_mapSpan_id, EnumValue_mapSpan_id, EnumIdent_mapSpan_id, EnumBlock_mapSpan_id, ColumnType_mapSpan_id, ColumnSettings_mapSpan_id, TableColumn_mapSpan_id, TableIdent_mapSpan_id, TableSettings_mapSpan_id]
theorem TableGroupItem_mapSpan_id (x : TableGroupItem) : x.mapSpan id = x := by cases x; simp [TableGroupItem.mapSpan, Ident_mapSpan_id, Literal_mapSpan_id, Attribute_mapSpan_id, Property_mapSpan_id, NoteBlock_mapSpan_id, ProjectBlock_mapSpan_id, RefIdent_mapSpan_id, RefInline_mapSpan_id, RefSettings_mapSpan_id, RefBlock_mapSpan_id, IndexesColumnType_mapSpan_id, IndexesSettings_mapSpan_id, IndexesDef_mapSpan_id, IndexesBlock_mapSpan_id, EnumValueSettings_mapSpan_id, EnumValue_mapSpan_id, EnumIdent_mapSpan_id, EnumBlock_mapSpan_id, ColumnType_mapSpan_id, ColumnSettings_mapSpan_id, TableColumn_mapSpan_id, TableIdent_mapSpan_id, TableSettings_mapSpan_id, TableBlock_mapSpan_id]
theorem TableGroupSettings_mapSpan_id (x : TableGroupSettings) : x.mapSpan id = x := by cases x; simp [TableGroupSettings.mapSpan, Ident_mapSpan_id, Literal_mapSpan_id, Attribute_mapSpan_id, Property_mapSpan_id, NoteBlock_mapSpan_id, ProjectBlock_mapSpan_id, RefIdent_mapSpan_id, RefInline_mapSpan_id, RefSettings_mapSpan_id, RefBlock_mapSpan_id, IndexesColumnType_mapSpan_id, IndexesSettings_mapSpan_id, IndexesDef_mapSpan_id, IndexesBlock_mapSpan_id, EnumValueSettings_mapSpan_id, EnumValue_mapSpan_id, EnumIdent_mapSpan_id, EnumBlock_mapSpan_id, ColumnType_mapSpan_id, ColumnSettings_mapSpan_id, TableColumn_mapSpan_id, TableIdent_mapSpan_id, TableSettings_mapSpan_id, TableBlock_mapSpan_id, TableGroupItem_mapSpan_id]
theorem TableGroupBlock_mapSpan_id (x : TableGroupBlock) : x.mapSpan id = x := by cases x; simp [TableGroupBlock.mapSpan, Ident_mapSpan_id, Literal_mapSpan_id, Attribute_mapSpan_id, Property_mapSpan_id, NoteBlock_mapSpan_id, ProjectBlock_mapSpan_id, RefIdent_mapSpan_id, RefInline_mapSpan_id, RefSettings_mapSpan_id, RefBlock_mapSpan_id, IndexesColumnType_mapSpan_id, IndexesSettings_mapSpan_id, IndexesDef_mapSpan_id, IndexesBlock_mapSpan_id, EnumValueSettings_mapSpan_id, EnumValue_mapSpan_id, EnumIdent_mapSpan_id, EnumBlock_mapSpan_id, ColumnType_mapSpan_id, ColumnSettings_mapSpan_id, TableColumn_mapSpan_id, TableIdent_mapSpan_id, TableSettings_mapSpan_id, TableBlock_mapSpan_id, TableGroupItem_mapSpan_id, TableGroupSettings_mapSpan_id]
theorem TopLevelBlock_mapSpan_id (x : TopLevelBlock) : x.mapSpan id = x := by cases x <;> simp [TopLevelBlock.mapSpan, Ident_mapSpan_id, Literal_mapSpan_id, Attribute_mapSpan_id, Property_mapSpan_id, NoteBlock_mapSpan_id, ProjectBlock_mapSpan_id, RefIdent_mapSpan_id, RefInline_mapSpan_id, RefSettings_mapSpan_id, RefBlock_mapSpan_id, IndexesColumnType_mapSpan_id, IndexesSettings_mapSpan_id, IndexesDef_mapSpan_id, IndexesBlock_mapSpan_id, EnumValueSettings_mapSpan_id, EnumValue_mapSpan_id, EnumIdent_mapSpan_id, EnumBlock_mapSpan_id, ColumnType_mapSpan_id, ColumnSettings_mapSpan_id, TableColumn_mapSpan_id, TableIdent_mapSpan_id, TableSettings_mapSpan_id, TableBlock_mapSpan_id, TableGroupItem_mapSpan_id, TableGroupSettings_mapSpan_id, TableGroupBlock_mapSpan_id]
theorem PError_mapSpan_id (x : PError) : x.mapSpan id = x := by cases x <;> rfl

end Dbml

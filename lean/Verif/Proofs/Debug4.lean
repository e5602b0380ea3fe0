import Verif.Proofs.Debug3
import Verif.Spec.Debug

/-!
# Every construct, one by one
-/

namespace Dbml.Debug

open Dbml Spec

/-- A double is written on one line. -/
theorem debug_lines (f : F64) : '\n' ∉ f.debug := by
  intro h
  have := debug_chars f _ h
  exact absurd this (by decide)

variable [Charset]

theorem inj_ident : Inj ident := by
  rintro ⟨a0, a1, a2⟩ ⟨b0, b1, b2⟩ h
  simp only [ident, struct, List.map_cons, List.map_nil, D.block.injEq, List.cons.injEq, key_inj, true_and, and_true] at h
  obtain ⟨h0, h1, h2⟩ := h
  have e0 : a0 = b0 := inj_span _ _ h0
  have e1 : a1 = b1 := inj_str _ _ h1
  have e2 : a2 = b2 := inj_str _ _ h2
  rw [e0, e1, e2]

theorem fine_ident : Fine ident := fun _ =>
  fine_struct (by decide) ⟨by decide, fine_span _, by decide, fine_str _, by decide, fine_str _, trivial⟩

theorem tells_value : Tells Std value Doubles.value := by
  intro a b ha hb h
  cases a <;> cases b <;>
    simp only [value, tuple, D.block.injEq, D.leaf.injEq, List.cons.injEq, reduceCtorEq, true_and, and_true, and_false, false_and,
      List.cons_append, List.nil_append, Char.reduceEq] at h
  · rw [inj_str _ _ h]
  · rw [inj_str _ _ h]
  · rw [displayInt_inj h]
  · rw [debug_inj (ha _ (by simp [Doubles.value])) (hb _ (by simp [Doubles.value])) h]
  · rw [inj_bool _ _ h]
  · rw [inj_str _ _ h]
  · rw [inj_str _ _ h]
  · rfl

theorem fine_value : Fine value := by
  intro a
  cases a with
  | null => show '\n' ∉ k!"Null"; decide
  | integer n =>
    refine fine_tuple (by decide) ?_
    intro h
    rcases displayInt_chars _ h with h | h <;> exact absurd h (by decide)
  | decimal f => exact fine_tuple (by decide) (debug_lines f)
  | bool b => exact fine_tuple (by decide) (fine_bool b)
  | enum s => exact fine_tuple (by decide) (fine_str s)
  | string s => exact fine_tuple (by decide) (fine_str s)
  | hexColor s => exact fine_tuple (by decide) (fine_str s)
  | expr s => exact fine_tuple (by decide) (fine_str s)

theorem tells_literal : Tells Std literal Doubles.literal := by
  rintro ⟨a0, a1, a2⟩ ⟨b0, b1, b2⟩ ha hb h
  simp only [literal, struct, List.map_cons, List.map_nil, D.block.injEq, List.cons.injEq, key_inj, true_and, and_true] at h
  obtain ⟨h0, h1, h2⟩ := h
  have e0 : a0 = b0 := inj_span _ _ h0
  have e1 : a1 = b1 := inj_str _ _ h1
  have e2 : a2 = b2 := tells_value _ _ (fun x hx => ha x hx) (fun x hx => hb x hx) h2
  rw [e0, e1, e2]

theorem fine_literal : Fine literal := fun _ =>
  fine_struct (by decide) ⟨by decide, fine_span _, by decide, fine_str _, by decide, fine_value _, trivial⟩

theorem tells_attr : Tells Std attr Doubles.attr := by
  rintro ⟨a0, a1, a2⟩ ⟨b0, b1, b2⟩ ha hb h
  simp only [attr, struct, List.map_cons, List.map_nil, D.block.injEq, List.cons.injEq, key_inj, true_and, and_true] at h
  obtain ⟨h0, h1, h2⟩ := h
  have e0 : a0 = b0 := inj_span _ _ h0
  have e1 : a1 = b1 := inj_ident _ _ h1
  have e2 : a2 = b2 := tells_literal.opt _ _ (fun x hx => ha x hx) (fun x hx => hb x hx) h2
  rw [e0, e1, e2]

theorem fine_attr : Fine attr := fun _ =>
  fine_struct (by decide) ⟨by decide, fine_span _, by decide, fine_ident _, by decide, fine_literal.opt _, trivial⟩

theorem tells_prop : Tells Std prop Doubles.prop := by
  rintro ⟨a0, a1, a2⟩ ⟨b0, b1, b2⟩ ha hb h
  simp only [prop, struct, List.map_cons, List.map_nil, D.block.injEq, List.cons.injEq, key_inj, true_and, and_true] at h
  obtain ⟨h0, h1, h2⟩ := h
  have e0 : a0 = b0 := inj_span _ _ h0
  have e1 : a1 = b1 := inj_ident _ _ h1
  have e2 : a2 = b2 := tells_literal _ _ (fun x hx => ha x hx) (fun x hx => hb x hx) h2
  rw [e0, e1, e2]

theorem fine_prop : Fine prop := fun _ =>
  fine_struct (by decide) ⟨by decide, fine_span _, by decide, fine_ident _, by decide, fine_literal _, trivial⟩

theorem tells_note : Tells Std note Doubles.note := by
  rintro ⟨a0, a1⟩ ⟨b0, b1⟩ ha hb h
  simp only [note, struct, List.map_cons, List.map_nil, D.block.injEq, List.cons.injEq, key_inj, true_and, and_true] at h
  obtain ⟨h0, h1⟩ := h
  have e0 : a0 = b0 := inj_span _ _ h0
  have e1 : a1 = b1 := tells_literal _ _ (fun x hx => ha x hx) (fun x hx => hb x hx) h1
  rw [e0, e1]

theorem fine_note : Fine note := fun _ =>
  fine_struct (by decide) ⟨by decide, fine_span _, by decide, fine_literal _, trivial⟩

theorem inj_dbt : Inj dbt := by
  intro a b h
  cases a <;> cases b <;>
    simp only [dbt, tuple, D.block.injEq, D.leaf.injEq, List.cons.injEq, reduceCtorEq, true_and, and_true] at h
  · rfl
  · rw [inj_str _ _ h]

theorem fine_dbt : Fine dbt := by
  intro a
  cases a with
  | postgreSQL => show '\n' ∉ k!"PostgreSQL"; decide
  | unknown s => exact fine_tuple (by decide) (fine_str s)

theorem tells_project : Tells Std project Doubles.project := by
  rintro ⟨a0, a1, a2, a3, a4⟩ ⟨b0, b1, b2, b3, b4⟩ ha hb h
  simp only [project, struct, List.map_cons, List.map_nil, D.block.injEq, List.cons.injEq, key_inj, true_and, and_true] at h
  obtain ⟨h0, h1, h2, h3, h4⟩ := h
  have e0 : a0 = b0 := inj_span _ _ h0
  have e1 : a1 = b1 := tells_prop.list _ _ (fun x hx => ha x (List.mem_append_left _ hx)) (fun x hx => hb x (List.mem_append_left _ hx)) h1
  have e2 : a2 = b2 := inj_ident _ _ h2
  have e3 : a3 = b3 := inj_dbt.opt _ _ h3
  have e4 : a4 = b4 := tells_note.opt _ _ (fun x hx => ha x (List.mem_append_right _ hx)) (fun x hx => hb x (List.mem_append_right _ hx)) h4
  rw [e0, e1, e2, e3, e4]

theorem fine_project : Fine project := fun _ =>
  fine_struct (by decide) ⟨by decide, fine_span _, by decide, fine_prop.list _, by decide, fine_ident _, by decide, fine_dbt.opt _, by decide, fine_note.opt _, trivial⟩

theorem inj_rel : Inj rel := by
  intro a b h
  cases a <;> cases b <;> simp_all [rel]

theorem fine_rel : Fine rel := by
  intro a
  cases a <;> (show '\n' ∉ _; decide)

theorem inj_refIdent : Inj refIdent := by
  rintro ⟨a0, a1, a2, a3⟩ ⟨b0, b1, b2, b3⟩ h
  simp only [refIdent, struct, List.map_cons, List.map_nil, D.block.injEq, List.cons.injEq, key_inj, true_and, and_true] at h
  obtain ⟨h0, h1, h2, h3⟩ := h
  have e0 : a0 = b0 := inj_span _ _ h0
  have e1 : a1 = b1 := inj_ident.opt _ _ h1
  have e2 : a2 = b2 := inj_ident _ _ h2
  have e3 : a3 = b3 := inj_ident.list _ _ h3
  rw [e0, e1, e2, e3]

theorem fine_refIdent : Fine refIdent := fun _ =>
  fine_struct (by decide) ⟨by decide, fine_span _, by decide, fine_ident.opt _, by decide, fine_ident _, by decide, fine_ident.list _, trivial⟩

theorem inj_refInline : Inj refInline := by
  rintro ⟨a0, a1, a2⟩ ⟨b0, b1, b2⟩ h
  simp only [refInline, struct, List.map_cons, List.map_nil, D.block.injEq, List.cons.injEq, key_inj, true_and, and_true] at h
  obtain ⟨h0, h1, h2⟩ := h
  have e0 : a0 = b0 := inj_span _ _ h0
  have e1 : a1 = b1 := inj_rel _ _ h1
  have e2 : a2 = b2 := inj_refIdent _ _ h2
  rw [e0, e1, e2]

theorem fine_refInline : Fine refInline := fun _ =>
  fine_struct (by decide) ⟨by decide, fine_span _, by decide, fine_rel _, by decide, fine_refIdent _, trivial⟩

theorem inj_action : Inj action := by
  intro a b h
  cases a <;> cases b <;> simp_all [action]

theorem fine_action : Fine action := by
  intro a
  cases a <;> (show '\n' ∉ _; decide)

theorem tells_refSettings : Tells Std refSettings Doubles.refSettings := by
  rintro ⟨a0, a1, a2, a3⟩ ⟨b0, b1, b2, b3⟩ ha hb h
  simp only [refSettings, struct, List.map_cons, List.map_nil, D.block.injEq, List.cons.injEq, key_inj, true_and, and_true] at h
  obtain ⟨h0, h1, h2, h3⟩ := h
  have e0 : a0 = b0 := inj_span _ _ h0
  have e1 : a1 = b1 := tells_attr.list _ _ (fun x hx => ha x hx) (fun x hx => hb x hx) h1
  have e2 : a2 = b2 := inj_action.opt _ _ h2
  have e3 : a3 = b3 := inj_action.opt _ _ h3
  rw [e0, e1, e2, e3]

theorem fine_refSettings : Fine refSettings := fun _ =>
  fine_struct (by decide) ⟨by decide, fine_span _, by decide, fine_attr.list _, by decide, fine_action.opt _, by decide, fine_action.opt _, trivial⟩

theorem tells_refBlock : Tells Std refBlock Doubles.refBlock := by
  rintro ⟨a0, a1, a2, a3, a4, a5⟩ ⟨b0, b1, b2, b3, b4, b5⟩ ha hb h
  simp only [refBlock, struct, List.map_cons, List.map_nil, D.block.injEq, List.cons.injEq, key_inj, true_and, and_true] at h
  obtain ⟨h0, h1, h2, h3, h4, h5⟩ := h
  have e0 : a0 = b0 := inj_span _ _ h0
  have e1 : a1 = b1 := inj_ident.opt _ _ h1
  have e2 : a2 = b2 := inj_rel _ _ h2
  have e3 : a3 = b3 := inj_refIdent _ _ h3
  have e4 : a4 = b4 := inj_refIdent _ _ h4
  have e5 : a5 = b5 := tells_refSettings.opt _ _ (fun x hx => ha x hx) (fun x hx => hb x hx) h5
  rw [e0, e1, e2, e3, e4, e5]

theorem fine_refBlock : Fine refBlock := fun _ =>
  fine_struct (by decide) ⟨by decide, fine_span _, by decide, fine_ident.opt _, by decide, fine_rel _, by decide, fine_refIdent _, by decide, fine_refIdent _, by decide, fine_refSettings.opt _, trivial⟩

theorem inj_idxType : Inj idxType := by
  intro a b h
  cases a <;> cases b <;> simp_all [idxType]

theorem fine_idxType : Fine idxType := by
  intro a
  cases a <;> (show '\n' ∉ _; decide)

theorem tells_idxSettings : Tells Std idxSettings Doubles.idxSettings := by
  rintro ⟨a0, a1, a2, a3, a4, a5, a6⟩ ⟨b0, b1, b2, b3, b4, b5, b6⟩ ha hb h
  simp only [idxSettings, struct, List.map_cons, List.map_nil, D.block.injEq, List.cons.injEq, key_inj, true_and, and_true] at h
  obtain ⟨h0, h1, h2, h3, h4, h5, h6⟩ := h
  have e0 : a0 = b0 := inj_span _ _ h0
  have e1 : a1 = b1 := tells_attr.list _ _ (fun x hx => ha x hx) (fun x hx => hb x hx) h1
  have e2 : a2 = b2 := inj_idxType.opt _ _ h2
  have e3 : a3 = b3 := inj_bool _ _ h3
  have e4 : a4 = b4 := inj_bool _ _ h4
  have e5 : a5 = b5 := inj_str.opt _ _ h5
  have e6 : a6 = b6 := inj_str.opt _ _ h6
  rw [e0, e1, e2, e3, e4, e5, e6]

theorem fine_idxSettings : Fine idxSettings := fun _ =>
  fine_struct (by decide) ⟨by decide, fine_span _, by decide, fine_attr.list _, by decide, fine_idxType.opt _, by decide, fine_bool _, by decide, fine_bool _, by decide, fine_str.opt _, by decide, fine_str.opt _, trivial⟩

theorem tells_idxCol : Tells Std idxCol Doubles.idxCol := by
  intro a b ha hb h
  cases a <;> cases b <;>
    simp only [idxCol, tuple, D.block.injEq, List.cons.injEq, reduceCtorEq, true_and, and_true, and_false, false_and,
      List.cons_append, List.nil_append, Char.reduceEq] at h
  · rw [inj_ident _ _ h]
  · rw [tells_literal _ _ ha hb h]

theorem fine_idxCol : Fine idxCol := by
  intro a
  cases a with
  | string i => exact fine_tuple (by decide) (fine_ident i)
  | expr l => exact fine_tuple (by decide) (fine_literal l)

theorem tells_idxDef : Tells Std idxDef Doubles.idxDef := by
  rintro ⟨a0, a1, a2⟩ ⟨b0, b1, b2⟩ ha hb h
  simp only [idxDef, struct, List.map_cons, List.map_nil, D.block.injEq, List.cons.injEq, key_inj, true_and, and_true] at h
  obtain ⟨h0, h1, h2⟩ := h
  have e0 : a0 = b0 := inj_span _ _ h0
  have e1 : a1 = b1 := tells_idxCol.list _ _ (fun x hx => ha x (List.mem_append_left _ hx)) (fun x hx => hb x (List.mem_append_left _ hx)) h1
  have e2 : a2 = b2 := tells_idxSettings.opt _ _ (fun x hx => ha x (List.mem_append_right _ hx)) (fun x hx => hb x (List.mem_append_right _ hx)) h2
  rw [e0, e1, e2]

theorem fine_idxDef : Fine idxDef := fun _ =>
  fine_struct (by decide) ⟨by decide, fine_span _, by decide, fine_idxCol.list _, by decide, fine_idxSettings.opt _, trivial⟩

theorem tells_idxBlock : Tells Std idxBlock Doubles.idxBlock := by
  rintro ⟨a0, a1⟩ ⟨b0, b1⟩ ha hb h
  simp only [idxBlock, struct, List.map_cons, List.map_nil, D.block.injEq, List.cons.injEq, key_inj, true_and, and_true] at h
  obtain ⟨h0, h1⟩ := h
  have e0 : a0 = b0 := inj_span _ _ h0
  have e1 : a1 = b1 := tells_idxDef.list _ _ (fun x hx => ha x hx) (fun x hx => hb x hx) h1
  rw [e0, e1]

theorem fine_idxBlock : Fine idxBlock := fun _ =>
  fine_struct (by decide) ⟨by decide, fine_span _, by decide, fine_idxDef.list _, trivial⟩

theorem tells_enumSettings : Tells Std enumSettings Doubles.enumSettings := by
  rintro ⟨a0, a1, a2⟩ ⟨b0, b1, b2⟩ ha hb h
  simp only [enumSettings, struct, List.map_cons, List.map_nil, D.block.injEq, List.cons.injEq, key_inj, true_and, and_true] at h
  obtain ⟨h0, h1, h2⟩ := h
  have e0 : a0 = b0 := inj_span _ _ h0
  have e1 : a1 = b1 := tells_attr.list _ _ (fun x hx => ha x hx) (fun x hx => hb x hx) h1
  have e2 : a2 = b2 := inj_str.opt _ _ h2
  rw [e0, e1, e2]

theorem fine_enumSettings : Fine enumSettings := fun _ =>
  fine_struct (by decide) ⟨by decide, fine_span _, by decide, fine_attr.list _, by decide, fine_str.opt _, trivial⟩

theorem tells_enumValue : Tells Std enumValue Doubles.enumValue := by
  rintro ⟨a0, a1, a2⟩ ⟨b0, b1, b2⟩ ha hb h
  simp only [enumValue, struct, List.map_cons, List.map_nil, D.block.injEq, List.cons.injEq, key_inj, true_and, and_true] at h
  obtain ⟨h0, h1, h2⟩ := h
  have e0 : a0 = b0 := inj_span _ _ h0
  have e1 : a1 = b1 := inj_ident _ _ h1
  have e2 : a2 = b2 := tells_enumSettings.opt _ _ (fun x hx => ha x hx) (fun x hx => hb x hx) h2
  rw [e0, e1, e2]

theorem fine_enumValue : Fine enumValue := fun _ =>
  fine_struct (by decide) ⟨by decide, fine_span _, by decide, fine_ident _, by decide, fine_enumSettings.opt _, trivial⟩

theorem inj_enumIdent : Inj enumIdent := by
  rintro ⟨a0, a1, a2⟩ ⟨b0, b1, b2⟩ h
  simp only [enumIdent, struct, List.map_cons, List.map_nil, D.block.injEq, List.cons.injEq, key_inj, true_and, and_true] at h
  obtain ⟨h0, h1, h2⟩ := h
  have e0 : a0 = b0 := inj_span _ _ h0
  have e1 : a1 = b1 := inj_ident.opt _ _ h1
  have e2 : a2 = b2 := inj_ident _ _ h2
  rw [e0, e1, e2]

theorem fine_enumIdent : Fine enumIdent := fun _ =>
  fine_struct (by decide) ⟨by decide, fine_span _, by decide, fine_ident.opt _, by decide, fine_ident _, trivial⟩

theorem tells_enumBlock : Tells Std enumBlock Doubles.enumBlock := by
  rintro ⟨a0, a1, a2⟩ ⟨b0, b1, b2⟩ ha hb h
  simp only [enumBlock, struct, List.map_cons, List.map_nil, D.block.injEq, List.cons.injEq, key_inj, true_and, and_true] at h
  obtain ⟨h0, h1, h2⟩ := h
  have e0 : a0 = b0 := inj_span _ _ h0
  have e1 : a1 = b1 := inj_enumIdent _ _ h1
  have e2 : a2 = b2 := tells_enumValue.list _ _ (fun x hx => ha x hx) (fun x hx => hb x hx) h2
  rw [e0, e1, e2]

theorem fine_enumBlock : Fine enumBlock := fun _ =>
  fine_struct (by decide) ⟨by decide, fine_span _, by decide, fine_enumIdent _, by decide, fine_enumValue.list _, trivial⟩

/-- The names of the types without a text. -/
def typeNames : List (Str × ColumnTypeName) :=
  [(k!"Undef", .undef), (k!"Bit", .bit), (k!"Varbit", .varbit), (k!"Char", .char), (k!"VarChar", .varchar), (k!"Box", .box), (k!"Cidr", .cidr), (k!"Circle", .circle), (k!"Inet", .inet), (k!"Line", .line), (k!"LineSegment", .lineSegment), (k!"MacAddr", .macAddr), (k!"MacAddr8", .macAddr8), (k!"Money", .money), (k!"Path", .path), (k!"PGLongSequenceNumber", .pgLongSequenceNumber), (k!"PGSnapshot", .pgSnapshot), (k!"Point", .point), (k!"Polygon", .polygon), (k!"TSQuery", .tsQuery), (k!"TSVector", .tsVector), (k!"SmallSerial", .smallSerial), (k!"Serial", .serial), (k!"BigSerial", .bigSerial), (k!"SmallInt", .smallInt), (k!"Integer", .integer), (k!"BigInt", .bigInt), (k!"Real", .real), (k!"DoublePrecision", .doublePrecision), (k!"Bool", .bool), (k!"ByteArray", .byteArray), (k!"Date", .date), (k!"Text", .text), (k!"Time", .time), (k!"Timetz", .timetz), (k!"Timestamp", .timestamp), (k!"Timestamptz", .timestamptz), (k!"Uuid", .uuid), (k!"Json", .json), (k!"Jsonb", .jsonb), (k!"Decimal", .decimal), (k!"Xml", .xml)]

/-- The type that is written so. -/
def unName : D → Option ColumnTypeName
  | .leaf s => typeNames.lookup s
  | .block _ _ _ => none

theorem unName_typeName (t : ColumnTypeName) : unName (typeName t) = some t ∨ (∃ s, t = .raw s) ∨ ∃ s, t = .enum s := by
  cases t <;> first | exact .inr (.inl ⟨_, rfl⟩) | exact .inr (.inr ⟨_, rfl⟩) | exact .inl rfl

theorem inj_typeName : Inj typeName := by
  intro a b h
  rcases unName_typeName a with ha | ⟨s, rfl⟩ | ⟨s, rfl⟩ <;> rcases unName_typeName b with hb | ⟨t, rfl⟩ | ⟨t, rfl⟩
  · rw [h, hb] at ha; exact (Option.some.inj ha).symm
  · rw [h] at ha; cases ha
  · rw [h] at ha; cases ha
  · rw [← h] at hb; cases hb
  · simp only [typeName, tuple, D.block.injEq, List.cons.injEq, true_and, and_true] at h
    rw [inj_str _ _ h]
  · simp [typeName, tuple] at h
  · rw [← h] at hb; cases hb
  · simp [typeName, tuple] at h
  · simp only [typeName, tuple, D.block.injEq, List.cons.injEq, true_and, and_true] at h
    rw [inj_str _ _ h]

theorem fine_typeName : Fine typeName := by
  intro a
  cases a with
  | raw s => exact fine_tuple (by decide) (fine_str s)
  | enum s => exact fine_tuple (by decide) (fine_str s)
  | _ => (show '\n' ∉ _; decide)

theorem inj_arr : Inj arr :=
  Inj.opt fun a b h => by
    simp only [D.leaf.injEq] at h
    exact digits10_inj h

theorem fine_arr : Fine arr :=
  Fine.opt fun _ => not_mem_digits (by decide)

theorem tells_colType : Tells Std colType Doubles.colType := by
  rintro ⟨a0, a1, a2, a3, a4⟩ ⟨b0, b1, b2, b3, b4⟩ ha hb h
  simp only [colType, struct, List.map_cons, List.map_nil, D.block.injEq, List.cons.injEq, key_inj, true_and, and_true] at h
  obtain ⟨h0, h1, h2, h3, h4⟩ := h
  have e0 : a0 = b0 := inj_span _ _ h0
  have e1 : a1 = b1 := inj_str _ _ h1
  have e2 : a2 = b2 := inj_typeName _ _ h2
  have e3 : a3 = b3 := tells_value.list _ _ (fun x hx => ha x hx) (fun x hx => hb x hx) h3
  have e4 : a4 = b4 := inj_arr.list _ _ h4
  rw [e0, e1, e2, e3, e4]

theorem fine_colType : Fine colType := fun _ =>
  fine_struct (by decide) ⟨by decide, fine_span _, by decide, fine_str _, by decide, fine_typeName _, by decide, fine_value.list _, by decide, fine_arr.list _, trivial⟩

theorem inj_nullable : Inj nullable := by
  intro a b h
  cases a <;> cases b <;> simp_all [nullable]

theorem fine_nullable : Fine nullable := by
  intro a
  cases a <;> (show '\n' ∉ _; decide)

theorem tells_colSettings : Tells Std colSettings Doubles.colSettings := by
  rintro ⟨a0, a1, a2, a3, a4, a5, a6, a7, a8⟩ ⟨b0, b1, b2, b3, b4, b5, b6, b7, b8⟩ ha hb h
  simp only [colSettings, struct, List.map_cons, List.map_nil, D.block.injEq, List.cons.injEq, key_inj, true_and, and_true] at h
  obtain ⟨h0, h1, h2, h3, h4, h5, h6, h7, h8⟩ := h
  have e0 : a0 = b0 := inj_span _ _ h0
  have e1 : a1 = b1 := tells_attr.list _ _ (fun x hx => ha x (List.mem_append_left _ hx)) (fun x hx => hb x (List.mem_append_left _ hx)) h1
  have e2 : a2 = b2 := inj_bool _ _ h2
  have e3 : a3 = b3 := inj_bool _ _ h3
  have e4 : a4 = b4 := inj_nullable.opt _ _ h4
  have e5 : a5 = b5 := inj_bool _ _ h5
  have e6 : a6 = b6 := inj_str.opt _ _ h6
  have e7 : a7 = b7 := tells_value.opt _ _ (fun x hx => ha x (List.mem_append_right _ hx)) (fun x hx => hb x (List.mem_append_right _ hx)) h7
  have e8 : a8 = b8 := inj_refInline.list _ _ h8
  rw [e0, e1, e2, e3, e4, e5, e6, e7, e8]

theorem fine_colSettings : Fine colSettings := fun _ =>
  fine_struct (by decide) ⟨by decide, fine_span _, by decide, fine_attr.list _, by decide, fine_bool _, by decide, fine_bool _, by decide, fine_nullable.opt _, by decide, fine_bool _, by decide, fine_str.opt _, by decide, fine_value.opt _, by decide, fine_refInline.list _, trivial⟩

theorem tells_tableCol : Tells Std tableCol Doubles.tableCol := by
  rintro ⟨a0, a1, a2, a3⟩ ⟨b0, b1, b2, b3⟩ ha hb h
  simp only [tableCol, struct, List.map_cons, List.map_nil, D.block.injEq, List.cons.injEq, key_inj, true_and, and_true] at h
  obtain ⟨h0, h1, h2, h3⟩ := h
  have e0 : a0 = b0 := inj_span _ _ h0
  have e1 : a1 = b1 := inj_ident _ _ h1
  have e2 : a2 = b2 := tells_colType _ _ (fun x hx => ha x (List.mem_append_left _ hx)) (fun x hx => hb x (List.mem_append_left _ hx)) h2
  have e3 : a3 = b3 := tells_colSettings.opt _ _ (fun x hx => ha x (List.mem_append_right _ hx)) (fun x hx => hb x (List.mem_append_right _ hx)) h3
  rw [e0, e1, e2, e3]

theorem fine_tableCol : Fine tableCol := fun _ =>
  fine_struct (by decide) ⟨by decide, fine_span _, by decide, fine_ident _, by decide, fine_colType _, by decide, fine_colSettings.opt _, trivial⟩

theorem inj_tableIdent : Inj tableIdent := by
  rintro ⟨a0, a1, a2, a3⟩ ⟨b0, b1, b2, b3⟩ h
  simp only [tableIdent, struct, List.map_cons, List.map_nil, D.block.injEq, List.cons.injEq, key_inj, true_and, and_true] at h
  obtain ⟨h0, h1, h2, h3⟩ := h
  have e0 : a0 = b0 := inj_span _ _ h0
  have e1 : a1 = b1 := inj_ident _ _ h1
  have e2 : a2 = b2 := inj_ident.opt _ _ h2
  have e3 : a3 = b3 := inj_ident.opt _ _ h3
  rw [e0, e1, e2, e3]

theorem fine_tableIdent : Fine tableIdent := fun _ =>
  fine_struct (by decide) ⟨by decide, fine_span _, by decide, fine_ident _, by decide, fine_ident.opt _, by decide, fine_ident.opt _, trivial⟩

theorem tells_tableSettings : Tells Std tableSettings Doubles.tableSettings := by
  rintro ⟨a0, a1⟩ ⟨b0, b1⟩ ha hb h
  simp only [tableSettings, struct, List.map_cons, List.map_nil, D.block.injEq, List.cons.injEq, key_inj, true_and, and_true] at h
  obtain ⟨h0, h1⟩ := h
  have e0 : a0 = b0 := inj_span _ _ h0
  have e1 : a1 = b1 := tells_attr.list _ _ (fun x hx => ha x hx) (fun x hx => hb x hx) h1
  rw [e0, e1]

theorem fine_tableSettings : Fine tableSettings := fun _ =>
  fine_struct (by decide) ⟨by decide, fine_span _, by decide, fine_attr.list _, trivial⟩

theorem tells_groupSettings : Tells Std groupSettings Doubles.groupSettings := by
  rintro ⟨a0, a1⟩ ⟨b0, b1⟩ ha hb h
  simp only [groupSettings, struct, List.map_cons, List.map_nil, D.block.injEq, List.cons.injEq, key_inj, true_and, and_true] at h
  obtain ⟨h0, h1⟩ := h
  have e0 : a0 = b0 := inj_span _ _ h0
  have e1 : a1 = b1 := tells_attr.list _ _ (fun x hx => ha x hx) (fun x hx => hb x hx) h1
  rw [e0, e1]

theorem fine_groupSettings : Fine groupSettings := fun _ =>
  fine_struct (by decide) ⟨by decide, fine_span _, by decide, fine_attr.list _, trivial⟩

theorem tells_tableBlock : Tells Std tableBlock Doubles.tableBlock := by
  rintro ⟨a0, a1, a2, a3, a4, a5⟩ ⟨b0, b1, b2, b3, b4, b5⟩ ha hb h
  simp only [tableBlock, struct, List.map_cons, List.map_nil, D.block.injEq, List.cons.injEq, key_inj, true_and, and_true] at h
  obtain ⟨h0, h1, h2, h3, h4, h5⟩ := h
  have e0 : a0 = b0 := inj_span _ _ h0
  have e1 : a1 = b1 := tells_tableCol.list _ _ (fun x hx => ha x (List.mem_append_left _ hx)) (fun x hx => hb x (List.mem_append_left _ hx)) h1
  have e2 : a2 = b2 := inj_tableIdent _ _ h2
  have e3 : a3 = b3 := tells_note.opt _ _ (fun x hx => ha x (List.mem_append_right _ (List.mem_append_left _ hx))) (fun x hx => hb x (List.mem_append_right _ (List.mem_append_left _ hx))) h3
  have e4 : a4 = b4 := tells_idxBlock.opt _ _ (fun x hx => ha x (List.mem_append_right _ (List.mem_append_right _ (List.mem_append_left _ hx)))) (fun x hx => hb x (List.mem_append_right _ (List.mem_append_right _ (List.mem_append_left _ hx)))) h4
  have e5 : a5 = b5 := tells_tableSettings.opt _ _ (fun x hx => ha x (List.mem_append_right _ (List.mem_append_right _ (List.mem_append_right _ hx)))) (fun x hx => hb x (List.mem_append_right _ (List.mem_append_right _ (List.mem_append_right _ hx)))) h5
  rw [e0, e1, e2, e3, e4, e5]

theorem fine_tableBlock : Fine tableBlock := fun _ =>
  fine_struct (by decide) ⟨by decide, fine_span _, by decide, fine_tableCol.list _, by decide, fine_tableIdent _, by decide, fine_note.opt _, by decide, fine_idxBlock.opt _, by decide, fine_tableSettings.opt _, trivial⟩

theorem inj_groupItem : Inj groupItem := by
  rintro ⟨a0, a1, a2⟩ ⟨b0, b1, b2⟩ h
  simp only [groupItem, struct, List.map_cons, List.map_nil, D.block.injEq, List.cons.injEq, key_inj, true_and, and_true] at h
  obtain ⟨h0, h1, h2⟩ := h
  have e0 : a0 = b0 := inj_span _ _ h0
  have e1 : a1 = b1 := inj_ident.opt _ _ h1
  have e2 : a2 = b2 := inj_ident _ _ h2
  rw [e0, e1, e2]

theorem fine_groupItem : Fine groupItem := fun _ =>
  fine_struct (by decide) ⟨by decide, fine_span _, by decide, fine_ident.opt _, by decide, fine_ident _, trivial⟩

theorem tells_groupBlock : Tells Std groupBlock Doubles.groupBlock := by
  rintro ⟨a0, a1, a2, a3, a4⟩ ⟨b0, b1, b2, b3, b4⟩ ha hb h
  simp only [groupBlock, struct, List.map_cons, List.map_nil, D.block.injEq, List.cons.injEq, key_inj, true_and, and_true] at h
  obtain ⟨h0, h1, h2, h3, h4⟩ := h
  have e0 : a0 = b0 := inj_span _ _ h0
  have e1 : a1 = b1 := inj_ident _ _ h1
  have e2 : a2 = b2 := tells_note.opt _ _ (fun x hx => ha x (List.mem_append_left _ hx)) (fun x hx => hb x (List.mem_append_left _ hx)) h2
  have e3 : a3 = b3 := inj_groupItem.list _ _ h3
  have e4 : a4 = b4 := tells_groupSettings.opt _ _ (fun x hx => ha x (List.mem_append_right _ hx)) (fun x hx => hb x (List.mem_append_right _ hx)) h4
  rw [e0, e1, e2, e3, e4]

theorem fine_groupBlock : Fine groupBlock := fun _ =>
  fine_struct (by decide) ⟨by decide, fine_span _, by decide, fine_ident _, by decide, fine_note.opt _, by decide, fine_groupItem.list _, by decide, fine_groupSettings.opt _, trivial⟩

theorem tells_block : Tells Std block Doubles.block := by
  intro a b ha hb h
  cases a <;> cases b <;>
    simp only [block, tuple, D.block.injEq, List.cons.injEq, reduceCtorEq, true_and, and_true, and_false, false_and,
      List.cons_append, List.nil_append, Char.reduceEq] at h
  · rw [tells_project _ _ ha hb h]
  · rw [tells_tableBlock _ _ ha hb h]
  · rw [tells_groupBlock _ _ ha hb h]
  · rw [tells_note _ _ ha hb h]
  · rw [tells_refBlock _ _ ha hb h]
  · rw [tells_enumBlock _ _ ha hb h]

theorem fine_block : Fine block := by
  intro a
  cases a with
  | project b => exact fine_tuple (by decide) (fine_project b)
  | table b => exact fine_tuple (by decide) (fine_tableBlock b)
  | tableGroup b => exact fine_tuple (by decide) (fine_groupBlock b)
  | note b => exact fine_tuple (by decide) (fine_note b)
  | ref b => exact fine_tuple (by decide) (fine_refBlock b)
  | enum b => exact fine_tuple (by decide) (fine_enumBlock b)

theorem tells_schema : Tells Std schema Doubles.schema := by
  rintro ⟨a0, a1, a2⟩ ⟨b0, b1, b2⟩ ha hb h
  simp only [schema, struct, List.map_cons, List.map_nil, D.block.injEq, List.cons.injEq, key_inj, true_and, and_true] at h
  obtain ⟨h0, h1, h2⟩ := h
  have e0 : a0 = b0 := inj_span _ _ h0
  have e1 : a1 = b1 := inj_str _ _ h1
  have e2 : a2 = b2 := tells_block.list _ _ (fun x hx => ha x hx) (fun x hx => hb x hx) h2
  rw [e0, e1, e2]

theorem fine_schema : Fine schema := fun _ =>
  fine_struct (by decide) ⟨by decide, fine_span _, by decide, fine_str _, by decide, fine_block.list _, trivial⟩

end Dbml.Debug

import Verif.Spec.Debug
import Verif.Spec.Shape
import Verif.Proofs.Float2
import Verif.Proofs.Folds

/-!
# The doubles in a well-formed AST are in canonical form
-/

namespace Dbml.Debug

open Dbml Spec Syntax Source

/-- All doubles of a list are in canonical form. -/
def AllStd (l : List F64) : Prop := ∀ m e, .fin m e ∈ l → IsFloat m e

theorem allStd_nil : AllStd [] := fun _ _ h => by simp at h

theorem allStd_append {a b : List F64} (ha : AllStd a) (hb : AllStd b) : AllStd (a ++ b) := fun m e h => by
  rcases List.mem_append.1 h with h | h
  · exact ha m e h
  · exact hb m e h

theorem allStd_flatMap {α} {f : α → List F64} {l : List α} (h : ∀ a ∈ l, AllStd (f a)) : AllStd (l.flatMap f) := fun m e hm => by
  obtain ⟨a, ha, h2⟩ := List.mem_flatMap.1 hm
  exact h a ha m e h2

theorem allStd_opt {α} {f : α → List F64} {o : Option α} (h : ∀ a ∈ o, AllStd (f a)) : AllStd (o.toList.flatMap f) :=
  allStd_flatMap fun a ha => h a (by simpa using ha)

/-- What is read from a text is in canonical form. -/
theorem parse_std (t : Str) {m : Nat} {e : Int} (h : F64.parse t = .fin m e) : IsFloat m e := by
  unfold F64.parse at h
  have hn := ofRat_nearest (F64.digitsVal (t.takeWhile (· ≠ '.') ++ (t.dropWhile (· ≠ '.')).drop 1))
    (10 ^ ((t.dropWhile (· ≠ '.')).drop 1).length) (by positivity)
  rw [h] at hn
  exact hn.2.1

theorem lit_std (l : Lit) : AllStd (Doubles.value l.value) := by
  intro m e h
  cases l <;> simp only [Lit.value, Doubles.value, List.not_mem_nil, List.mem_singleton] at h
  exact parse_std _ h.symm

theorem aval_std (v : AVal) : AllStd (Doubles.value v.value) := by
  cases v with
  | lit l => exact lit_std l
  | word s => exact allStd_nil
  | dq x => exact allStd_nil

theorem literal_std {l : Literal} (h : Shape.LitOk l) : AllStd (Doubles.literal l) := by
  obtain ⟨v, -, -, hv⟩ := h
  unfold Doubles.literal
  rw [hv]
  exact aval_std v

theorem text_std {l : Literal} {t : Str} (h : l.value = .string t) : AllStd (Doubles.literal l) := by
  unfold Doubles.literal
  rw [h]
  exact allStd_nil

theorem note_std {n : NoteBlock} (h : Shape.NoteOk n) : AllStd (Doubles.note n) := by
  obtain ⟨v, -, -, hv⟩ := h
  exact text_std hv

theorem attrs_std {as : List Attribute} (h : Shape.AttrsOk as) : AllStd (as.flatMap Doubles.attr) :=
  allStd_flatMap fun a ha => allStd_opt fun l hl => literal_std ((h a ha).2 l hl)

theorem project_std {p : ProjectBlock} (h : Shape.ProjectOk p) : AllStd (Doubles.project p) :=
  allStd_append (allStd_flatMap fun q hq => literal_std (h.2.1 q hq).2.1) (allStd_opt fun n hn => note_std (h.2.2.1 n hn))

theorem ref_std {r : RefBlock} (h : Shape.RefBlockOk r) : AllStd (Doubles.refBlock r) :=
  allStd_opt fun s hs => attrs_std (h.2.2.2.2 s hs).1

theorem indexes_std {b : IndexesBlock} (h : Shape.IndexesOk b) : AllStd (Doubles.idxBlock b) :=
  allStd_flatMap fun d hd => allStd_append
    (allStd_flatMap fun c hc => by
      have := (h d hd).1 c hc
      cases c with
      | string i => exact allStd_nil
      | expr l =>
        obtain ⟨x, -, -, hv⟩ := this
        exact text_std hv)
    (allStd_opt fun s hs => attrs_std ((h d hd).2 s hs).1)

theorem enum_std {e : EnumBlock} (h : Shape.EnumOk e) : AllStd (Doubles.enumBlock e) :=
  allStd_flatMap fun v hv => allStd_opt fun s hs => attrs_std ((h.2.2 v hv).2 s hs).1

theorem column_std {c : TableColumn} (h : Shape.ColumnOk c) : AllStd (Doubles.tableCol c) := by
  refine allStd_append ?_ (allStd_opt fun s hs => ?_)
  · obtain ⟨t, -, -, -, ha, -⟩ := h.2.1
    refine allStd_flatMap fun v hv => ?_
    rw [ha] at hv
    obtain ⟨l, -, rfl⟩ := List.mem_map.1 hv
    exact lit_std l
  · have hs' := h.2.2 s hs
    refine allStd_append (attrs_std hs'.1) (allStd_opt fun v hv => ?_)
    rw [hs'.2.2.2.2.2.2.2] at hv
    cases hl : lastValue k!"default" s.attributes with
    | none => rw [hl] at hv; simp at hv
    | some l =>
      rw [hl] at hv
      obtain ⟨a, ha, -, hal⟩ := lastValue_mem hl
      simp only [Option.map_some, Option.mem_def, Option.some.injEq] at hv
      subst hv
      exact literal_std ((hs'.1 a ha).2 l hal)

theorem table_std {t : TableBlock} (h : Shape.TableOk t) : AllStd (Doubles.tableBlock t) := by
  obtain ⟨-, -, -, h4, h5, h6, h7⟩ := h
  exact allStd_append (allStd_flatMap fun c hc => column_std (h5 c hc)) (allStd_append (allStd_opt fun n hn => note_std (h6 n hn))
    (allStd_append (allStd_opt fun i hi => indexes_std (h7 i hi)) (allStd_opt fun s hs => attrs_std (h4 s hs))))

theorem group_std {g : TableGroupBlock} (h : Shape.GroupOk g) : AllStd (Doubles.groupBlock g) :=
  allStd_append (allStd_opt fun n hn => note_std (h.2.2.1 n hn)) (allStd_opt fun s hs => attrs_std (h.2.1 s hs))

theorem schema_std {s : SchemaBlock} (h : Shape.SchemaOk s) : Canonical s :=
  allStd_flatMap fun b hb => by
    have h := h b hb
    cases b with
    | project b => exact project_std h
    | table b => exact table_std h
    | tableGroup b => exact group_std h
    | note b => exact note_std h
    | ref b => exact ref_std h
    | enum b => exact enum_std h

end Dbml.Debug

import Verif.Proofs.Walkers5

/-!
# The whole document
-/

namespace Dbml
open Syntax

/-- A top-level declaration's pair. -/
def BlockN (p : Piece) (pr : Pair) : Prop :=
  Node .project_decl ProjectD parseProjectDecl p pr ∨ Node .table_decl TableD parseTableDecl p pr ∨
  Node .enum_decl EnumD parseEnumDecl p pr ∨ Node .ref_decl RefD parseRefDecl p pr ∨
  Node .table_group_decl GroupD parseTableGroupDecl p pr ∨ Node .note_decl NoteD parseNoteDecl p pr

theorem top_emits : Emits G.top_decl .nonAtomic BlockN :=
  alt_emits (project_emits.mono fun _ _ h => .inl h) <|
  alt_emits (table_emits.mono fun _ _ h => .inr (.inl h)) <|
  alt_emits (enum_emits.mono fun _ _ h => .inr (.inr (.inl h))) <|
  alt_emits (ref_emits.mono fun _ _ h => .inr (.inr (.inr (.inl h)))) <|
  alt_emits (group_emits.mono fun _ _ h => .inr (.inr (.inr (.inr (.inl h))))) <|
  (note_emits rfl).mono fun _ _ h => .inr (.inr (.inr (.inr (.inr h))))

/-- How a declaration extends the schema. -/
def schemaStep (acc : SchemaBlock) (b : TopLevelBlock) : SchemaBlock :=
  { acc with blocks := acc.blocks ++ [b] }

theorem schemaStep_foldl (xs : List TopLevelBlock) (acc : SchemaBlock) :
    xs.foldl schemaStep acc = { acc with blocks := acc.blocks ++ xs } := by
  induction xs generalizing acc with
  | nil => simp
  | cons x xs ih => simp [ih, schemaStep]

/-- Reading the tree of a recognised text: a schema denoted by the text, or a legitimate error. -/
theorem pest_ok_good {input c r ps} (h : pestParse input = .ok c r ps) :
    ∃ pr, ps = [pr] ∧ pr.rule = .schema ∧
      Good ⟨0, input⟩ (SchemaD input) (parseSchema pr input) := by
  obtain ⟨hi, hm⟩ := run_sound skip_sound _ _ _ _ _ _ _ h
  obtain ⟨kids, rfl, hb⟩ := rule_inv hm rfl
  obtain ⟨p1, p2, k1, k2, rest1, rfl, h1, h2, hp1⟩ := seqP (p := ⟨0, c⟩) hb
  obtain ⟨hs, -, rfl⟩ := h1
  obtain ⟨p3, p4, k3, k4, rest3, rfl, h3, h4, hp2⟩ := seqP h2
  obtain ⟨he, rfl, rfl⟩ := h4
  have hc : c = input := by simpa using hi.symm
  subst hc
  have hparts : Parts .loose ⟨0, c⟩ _ := hp1 _ (hp2 _ .one)
  refine ⟨_, rfl, rfl, ?_⟩
  unfold parseSchema
  simp only [Pair.children_mk, List.nil_append]
  rw [List.foldlM_append]
  refine Good.bind ((foldlM_good manyD_layout (D := BlockD) (g := schemaStep) ?_
    (starP top_emits h3) _).sub (parts_sub hparts p3 (by simp))) ?_
  · intro m pr b hq
    rcases hq with ⟨hr, -, -, hg⟩ | ⟨hr, -, -, hg⟩ | ⟨hr, -, -, hg⟩ | ⟨hr, -, -, hg⟩ |
      ⟨hr, -, -, hg⟩ | ⟨hr, -, -, hg⟩
    · simp only [hr]; exact Good.map hg fun n hn => ⟨.project n, hn, rfl⟩
    · simp only [hr]; exact Good.map hg fun n hn => ⟨.table n, hn, rfl⟩
    · simp only [hr]; exact Good.map hg fun n hn => ⟨.enum n, hn, rfl⟩
    · simp only [hr]; exact Good.map hg fun n hn => ⟨.ref n, hn, rfl⟩
    · simp only [hr]; exact Good.map hg fun n hn => ⟨.tableGroup n, hn, rfl⟩
    · simp only [hr]; exact Good.map hg fun n hn => ⟨.note n, hn, rfl⟩
  · rintro _ ⟨xs, hxs, rfl⟩
    rw [schemaStep_foldl]
    refine ⟨p1, p3, p4, hparts, hs, he, hxs, by simp, rfl⟩

/-- Everything about reading a text. -/
theorem read_cases (input : Str) :
    (∃ s, parseDbmlUnchecked input = .ok s ∧ SchemaD input s) ∨
    (parseDbmlUnchecked input = .err .syntax ∧ pestParse input = .fail) ∨
    (∃ e, parseDbmlUnchecked input = .err e ∧ ReadErr ⟨0, input⟩ e) ∨
    (parseDbmlUnchecked input = .diverge ∧ pestParse input = .diverge) := by
  unfold parseDbmlUnchecked
  cases h : pestParse input with
  | fail => exact .inr (.inl ⟨rfl, rfl⟩)
  | diverge => exact .inr (.inr (.inr ⟨rfl, rfl⟩))
  | ok c r ps =>
    obtain ⟨pr, rfl, hr, hg⟩ := pest_ok_good h
    simp only [List.head?_cons, Rs.orPanic, Rs.ok_bind', hr]
    cases hx : parseSchema pr input with
    | ok s => rw [hx] at hg; exact .inl ⟨s, rfl, hg⟩
    | err e => rw [hx] at hg; exact .inr (.inr (.inl ⟨e, rfl, hg⟩))
    | panic s => rw [hx] at hg; exact hg.elim
    | diverge => rw [hx] at hg; exact hg.elim

end Dbml

import Verif.Proofs.Debug5
import Verif.Proofs.Debug4
import Verif.Props.Parsing
import Verif.Props.Shape
import Verif.Props.Example

/-!
# C87: the `Debug` text of an AST determines it
-/

namespace Dbml.Props

open Dbml Spec

section

variable [Charset] {s s' : SchemaBlock} {t t' : Str}

/-- **C87.** The doubles in an AST that the parser gives are in canonical form. -/
theorem C87_canonical (h : parseDbmlUnchecked t = .ok s) : Spec.Canonical s := Debug.schema_std (C75_wellformed h)

/-- **C87.** Two ASTs with the same `{:#?}` text are the same. -/
theorem C87_debug (hs : Spec.Canonical s) (hs' : Spec.Canonical s') (h : s.debug = s'.debug) : s = s' := by
  have std : ∀ {s : SchemaBlock}, Spec.Canonical s → ∀ x ∈ Doubles.schema s, Debug.Std x := fun hc x hx m e hm => hc m e (hm ▸ hx)
  exact Debug.tells_schema s s' (std hs) (std hs') (Debug.render_eq (Debug.fine_schema s) (Debug.fine_schema s') h)

/-- **C87.** Two ASTs that the parser gives have the same `{:#?}` text only if they are the same, and then they are of the same text. -/
theorem C87_texts (h : parseDbmlUnchecked t = .ok s) (h' : parseDbmlUnchecked t' = .ok s') : s.debug = s'.debug ↔ t = t' := by
  constructor
  · intro e
    have e := C87_debug (C87_canonical h) (C87_canonical h') e
    rw [← (C08_blocks_in_order h).2.1, ← (C08_blocks_in_order h').2.1, e]
  · rintro rfl
    rw [h] at h'
    cases h'
    rfl

/-- **C87.** So too the tables of an AST. -/
theorem C87_table (h : parseDbmlUnchecked t = .ok s) (h' : parseDbmlUnchecked t' = .ok s') {a b : TableBlock}
    (ha : .table a ∈ s.blocks) (hb : .table b ∈ s'.blocks) (e : (Debug.tableBlock a).render [] = (Debug.tableBlock b).render []) : a = b := by
  have std : ∀ {t : Str} {s : SchemaBlock} {a : TableBlock}, parseDbmlUnchecked t = .ok s → .table a ∈ s.blocks →
      ∀ x ∈ Doubles.tableBlock a, Debug.Std x := fun h ha x hx m e hm =>
    C87_canonical h m e (hm ▸ List.mem_flatMap.2 ⟨_, ha, hx⟩)
  exact Debug.tells_tableBlock a b (std h ha) (std h' hb) (Debug.render_eq (Debug.fine_tableBlock a) (Debug.fine_tableBlock b) e)

/-- **C87.** Two numbers that the parser reads have the same `{:?}` text only if they are the same double. -/
theorem C87_double {m m' : Nat} {e e' : Int} (h : IsFloat m e) (h' : IsFloat m' e') (ht : (F64.fin m e).debug = (F64.fin m' e').debug) :
    m = m' ∧ e = e' := by
  have := Debug.debug_inj (f := .fin m e) (g := .fin m' e') (fun _ _ h0 => by cases h0; exact h) (fun _ _ h0 => by cases h0; exact h') ht
  simpa using this

/-- The two notations, by the number: when the exponent is written. -/
theorem exponential_iff {m : Nat} {e : Int} : F64.exponential m e = true ↔
    10 ^ 16 ≤ floatVal m e ∨ (0 < floatVal m e ∧ floatVal m e < 1 / 10 ^ 4) := by
  unfold F64.exponential
  generalize hnd : (if 0 ≤ e then (m * 2 ^ e.toNat, 1) else (m, 2 ^ (-e).toNat)) = nd
  obtain ⟨num, den⟩ := nd
  have hv : 0 < den ∧ (num : Rat) / den = floatVal m e ∧ (num = 0 ↔ m = 0) := by
    split at hnd
    · rename_i h
      obtain ⟨rfl, rfl⟩ := Prod.mk.inj hnd
      refine ⟨by positivity, ?_, by simp⟩
      unfold floatVal
      push_cast; rw [← zpow_natCast, Int.toNat_of_nonneg h, div_one]
    · rename_i h
      obtain ⟨rfl, rfl⟩ := Prod.mk.inj hnd
      refine ⟨by positivity, ?_, Iff.rfl⟩
      unfold floatVal
      push_cast; rw [← zpow_natCast, Int.toNat_of_nonneg (by omega), zpow_neg]; simp
  obtain ⟨hd, hq, hz⟩ := hv
  have hd' : (0 : Rat) < den := by exact_mod_cast hd
  rw [← hq, le_div_iff₀ hd', div_lt_div_iff₀ hd' (by positivity), div_pos_iff_of_pos_right hd']
  have h1 : ((10 : Rat) ^ 16 * den ≤ num) ↔ den * 10 ^ 16 ≤ num := by
    rw [mul_comm]; exact_mod_cast Iff.rfl
  have h2 : ((num : Rat) * 10 ^ 4 < 1 * den) ↔ num * 10 ^ 4 < den := by
    rw [one_mul]; exact_mod_cast Iff.rfl
  have h3 : ((0 : Rat) < num) ↔ m ≠ 0 := by
    rw [Nat.cast_pos, Nat.pos_iff_ne_zero, ne_eq, hz]
  rw [h1, h2, h3]
  simp only [decide_eq_true_eq]
  constructor
  · rintro ⟨a, b | b⟩
    · exact .inl b
    · exact .inr ⟨a, b⟩
  · rintro (b | ⟨a, b⟩)
    · refine ⟨fun h0 => ?_, .inl b⟩
      have : num = 0 := hz.2 h0
      have : 0 < den * 10 ^ 16 := by positivity
      omega
    · exact ⟨a, .inr b⟩

/-- **C87.** A double is written with an exponent iff it is at least `1e16`, or less than `1e-4` and not zero. -/
theorem C87_exponent {m : Nat} {e : Int} (h : IsFloat m e) : 'e' ∈ (F64.fin m e).debug ↔
    10 ^ 16 ≤ floatVal m e ∨ (0 < floatVal m e ∧ floatVal m e < 1 / 10 ^ 4) := by
  rw [← exponential_iff]
  unfold F64.debug
  dsimp only
  by_cases hx : F64.exponential m e = true
  · simp [hx, F64.sci]
  · rw [if_neg hx]
    obtain ⟨x, hp, -⟩ := Debug.display_plain h
    have hc : 'e' ∉ (F64.fin m e).display := fun hm => by
      rcases Debug.plain_chars hp _ hm with h | h
      · exact absurd h (by decide)
      · exact absurd h (by decide)
    simp only [hx, Bool.false_eq_true, iff_false]
    split
    · exact hc
    · simpa using hc

/-- **C87.** Without an exponent there is a point: a double is never written like an integer. -/
theorem C87_point {m : Nat} {e : Int} (h : 'e' ∉ (F64.fin m e).debug) : '.' ∈ (F64.fin m e).debug := by
  unfold F64.debug at h ⊢
  dsimp only at h ⊢
  split
  · rename_i hx
    rw [if_pos hx] at h
    exact absurd (by simp [F64.sci]) h
  · split
    · assumption
    · simp

end

/-! ## Concrete cases -/

/-- The characters that the examples show as they are. -/
local instance : Charset := ⟨fun c => decide (c.toNat ≠ 0xfe0f)⟩

example : Spec.Canonical exAst := C87_canonical ex_reads

/-- The example has a double, in a setting and as the default. -/
example : (Doubles.schema exAst).length = 2 := by decide +kernel

/-- A project: the whole text. -/
def projectText : Str := k!"SchemaBlock {
    span_range: 0..32,
    input: \"Project p { database_type: 'M' }\",
    blocks: [
        Project(
            ProjectBlock {
                span_range: 0..32,
                properties: [
                    Property {
                        span_range: 12..30,
                        key: Ident {
                            span_range: 12..25,
                            raw: \"database_type\",
                            to_string: \"database_type\",
                        },
                        value: Literal {
                            span_range: 27..30,
                            raw: \"'M'\",
                            value: String(
                                \"M\",
                            ),
                        },
                    },
                ],
                ident: Ident {
                    span_range: 8..9,
                    raw: \"p\",
                    to_string: \"p\",
                },
                database_type: Some(
                    Unknown(
                        \"M\",
                    ),
                ),
                note: None,
            },
        ),
    ],
}"

example : (parseDbmlUnchecked k!"Project p { database_type: 'M' }").get?.map SchemaBlock.debug = some projectText := by decide +kernel

/-- Quotes, backslashes, line breaks and characters that cannot be seen are escaped. -/
example : (Debug.str ['a', '"', '\\', '\n', '\t', 'é', '\x00', '\ufe0f']).render [] = ['"', 'a', '\\', '"', '\\', '\\', '\\', 'n', '\\', 't',
    'é', '\\', '0', '\\', 'u', '{', 'f', 'e', '0', 'f', '}', '"'] := by decide +kernel

/-- Doubles have a point or an exponent. -/
example : ((F64.parse k!"1").debug, (F64.parse k!"10000000000000000").debug, (F64.parse k!"9999999999999998").debug) =
    (k!"1.0", k!"1e16", k!"9999999999999998.0") := by decide +kernel
example : ((F64.parse k!"0.0001").debug, (F64.parse k!"0.00009999").debug, (F64.parse k!"0").debug) =
    (k!"0.0001", k!"9.999e-5", k!"0.0") := by decide +kernel

/-- The condition is needed in the model, whose type of doubles has `2 * 2 ^ 0` and `1 * 2 ^ 1`, which no double is: they are written alike. -/
example : (F64.fin 2 0).debug = (F64.fin 1 1).debug ∧ F64.fin 2 0 ≠ F64.fin 1 1 ∧ ¬ IsFloat 2 0 := by
  refine ⟨by decide +kernel, by decide, fun h => ?_⟩
  have := h.2.2.2
  norm_num at this

end Dbml.Props

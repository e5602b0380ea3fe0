import Verif.Proofs.Walk

/-!
# The tree walkers on values, identifiers, attributes and notes
-/

namespace Dbml
open Syntax

theorem emits_normal {a} (ha : a ≠ .atomic) : emits .normal a = true := by simpa [emits] using ha

theorem na : Atomicity.nonAtomic ≠ .atomic := by decide

@[simp] theorem Pair.rule_mk {r s t c} : (Pair.mk r s t c).rule = r := rfl
@[simp] theorem Pair.span_mk {r s t c} : (Pair.mk r s t c).span = s := rfl
@[simp] theorem Pair.text_mk {r s t c} : (Pair.mk r s t c).text = t := rfl
@[simp] theorem Pair.children_mk {r s t c} : (Pair.mk r s t c).children = c := rfl

/-- Evaluate a walker on explicit pairs. -/
macro "walk" "[" ls:Lean.Parser.Tactic.simpLemma,* "]" : tactic =>
  `(tactic| simp only [Pair.children_mk, Pair.rule_mk, Pair.text_mk, Pair.span_mk, List.foldlM_cons, List.foldlM_nil,
    List.mapM_cons, List.mapM_nil, Rs.bind_def, Rs.pure_def, Rs.ok_bind, Rs.bind_assoc, List.cons_append,
    List.nil_append, List.append_nil, List.head?_cons, Rs.orPanic, $ls,*])

/-- Evaluate a walker on explicit pairs, leaving the folds' step functions as they are written. -/
macro "walk'" "[" ls:Lean.Parser.Tactic.simpLemma,* "]" : tactic =>
  `(tactic| simp only [Pair.children_mk, Pair.rule_mk, Pair.text_mk, Pair.span_mk, List.foldlM_cons, List.foldlM_nil,
    bind_assoc, pure_bind, Rs.ok_bind', List.cons_append,
    List.nil_append, List.append_nil, List.head?_cons, Rs.orPanic, $ls,*])

theorem dq_emits {a} (ha : a ≠ .atomic) :
    Emits G.double_quoted_string a (fun p pr => pr.rule = .double_quoted_string ∧ pr.span = p.span ∧
      pr.text = p.txt ∧ QuotedD (gapOf a) k!"\"" p (innerStr pr)) := by
  intro pos c rest ps h
  obtain ⟨v, sp, rfl, hq⟩ := quoted_inv ⟨'"', [], rfl, by simp [IsSpace], by decide⟩ h ha
  exact ⟨_, rfl, rfl, rfl, rfl, hq⟩

theorem ident_emits {a} (ha : a ≠ .atomic) :
    Emits G.ident a (Node .ident (IdentD (gapOf a)) parseIdent) := by
  refine emits_rule (emits_normal ha) ?_
  intro p rest kids h
  rcases altP h with h | h
  · obtain ⟨rfl, hv⟩ := var_inv h ha
    exact ⟨rfl, rfl, .inl ⟨hv, rfl⟩⟩
  · obtain ⟨⟨r, s, t, k⟩, rfl, hr, hs, ht, hq⟩ := (dq_emits ha).inv h
    simp only [Pair.rule_mk, Pair.span_mk, Pair.text_mk] at hr hs ht
    subst hr hs ht
    exact ⟨rfl, rfl, .inr hq⟩

theorem string_value_emits {a} (ha : a ≠ .atomic) :
    Emits G.string_value a (Node .string_value (StringD (gapOf a)) parseStringValue) := by
  refine emits_rule (emits_normal ha) ?_
  intro p rest kids h
  rcases altP h with h | h
  · obtain ⟨v, sp, rfl, hq⟩ := quoted_inv ⟨'\'', _, rfl, by simp [IsSpace], by decide⟩ h ha
    exact .inl hq
  · obtain ⟨v, sp, rfl, hq⟩ := quoted_inv ⟨'\'', _, rfl, by simp [IsSpace], by decide⟩ h ha
    exact .inr hq

theorem digitsVal_eq (s : Str) : F64.digitsVal s = digitsNat s := by
  unfold F64.digitsVal digitsNat
  congr 1
  funext n c
  rw [Nat.mul_comm]
  rfl

theorem parseUnsigned_some {s max n} (h : parseUnsigned s max = some n) :
    n = digitsNat s ∧ digitsNat s ≤ max := by
  simp only [parseUnsigned, digitsVal_eq] at h
  split at h <;> simp_all

theorem parseUnsigned_none {s max} (h : parseUnsigned s max = none) : max < digitsNat s := by
  simp only [parseUnsigned, digitsVal_eq] at h
  split at h <;> simp_all

theorem boolean_inv {a pos c rest ps} (h : M G.boolean_value a pos c rest ps) (ha : a ≠ .atomic) :
    ps = [.mk .boolean_value ⟨pos, pos + blen c⟩ c []] ∧
      (c = k!"true" ∨ c = k!"false" ∨ c = k!"null") := by
  obtain ⟨kids, rfl, hb⟩ := rule_inv h (by simpa [emits] using ha)
  rcases hb with ⟨rfl, rfl⟩ | ⟨-, ⟨rfl, rfl⟩ | ⟨-, ⟨rfl, rfl⟩⟩⟩ <;> simp

theorem value_emits {a} (ha : a ≠ .atomic) :
    Emits G.value a (Node .value (ValueD (gapOf a)) parseValue) := by
  refine emits_rule (emits_normal ha) ?_
  intro p rest kids h
  rcases altP h with h | h
  · obtain ⟨pr, rfl, hr, hs, ht, hg⟩ := (string_value_emits ha).inv h
    walk [parseValue, hr]
    refine hg.bind fun v hv => ?_
    exact ValueD.string hv
  rcases altP h with h | h
  · obtain ⟨v, sp, rfl, hq⟩ := quoted_inv ⟨'`', _, rfl, by simp [IsSpace], by decide⟩ h ha
    exact .expr hq
  rcases altP h with h | h
  · obtain ⟨rfl, hb⟩ := boolean_inv h ha
    obtain ⟨pos, c⟩ := p
    simp only at hb
    rcases hb with hb | hb | hb <;> subst hb
    · exact ValueD.true rfl
    · exact ValueD.false rfl
    · exact ValueD.null rfl
  rcases altP h with h | h
  · obtain ⟨kids, rfl, hb⟩ := rule_inv h (emits_normal (by simpa [bodyAtomicity] using ha))
    rcases hb with hb | ⟨-, hb⟩
    · obtain ⟨rfl, x, y, he, hx, hy⟩ := decimal_inv hb ha
      exact .decimal he hx hy
    · obtain ⟨rfl, hd⟩ := integer_inv hb ha
      walk [parseValue]
      split
      · rename_i n hn
        obtain ⟨rfl, hlt⟩ := parseUnsigned_some hn
        exact .integer hd (by simp only [i64Max] at hlt; omega)
      · rename_i hn
        have := parseUnsigned_none hn
        exact .intTooLarge (q := p) (Syntax.Sub.refl _) hd (by simp only [i64Max] at this; omega)
  · obtain ⟨rfl, x, he, hx, hl⟩ := hex_inv h ha
    exact .hex he hx hl

/-- What `parse_decl_ident` gives. -/
theorem decl_ident_emits :
    Emits G.decl_ident .nonAtomic
      (Node .decl_ident (fun p (x : Option Ident × Ident) => DeclIdentD p x.1 x.2) parseDeclIdent) := by
  refine emits_rule rfl ?_
  intro p rest kids h
  obtain ⟨p1, p2, k1, k2, rest1, rfl, h1, h2, hparts⟩ := seqP h
  obtain ⟨pr, rfl, hr, hs, htx, hg⟩ := (ident_emits na).inv h1
  have hparts := hparts _ .one
  have hg := hg.sub (parts_sub hparts _ (by simp))
  rcases optP (commaItem_inv (ident_emits na)) h2 with
    ⟨he, rfl⟩ | ⟨pr2, rfl, dot, item, hp, hd, hr2, hs2, ht2, hg2⟩
  · walk [parseDeclIdent, hr]
    refine hg.bind fun i hi => ?_
    exact ⟨_, _, hparts, .inl ⟨he, rfl, hi⟩⟩
  · have hg2 := hg2.sub ((parts_sub hp _ (by simp)).trans (parts_sub hparts _ (by simp)))
    walk [parseDeclIdent, hr, hr2]
    refine hg.bind fun i hi => hg2.bind fun j hj => ?_
    exact ⟨_, _, hparts, .inr ⟨dot, item, i, hp, hd, hi, rfl, hj⟩⟩

theorem spaced_emits {a} (ha : a ≠ .atomic) : Emits G.spaced_var a (fun p pr =>
    pr = .mk .spaced_var p.span p.txt [] ∧ IsSpacedVar p.txt) := by
  intro pos c rest ps h
  obtain ⟨rfl, hv⟩ := spaced_var_inv h ha
  exact ⟨_, rfl, rfl, hv⟩

theorem spaced_nonempty {s} (h : IsSpacedVar s) : s.isEmpty = false := by
  obtain ⟨c, cs, rfl, -⟩ := h; rfl

/-- Where `value` fails, no literal word stands. -/
theorem value_fail_like {pos s} (h : run G.skip G.value .nonAtomic pos s = .fail) : ¬ LikeLiteral s := by
  intro hl
  have h1 : run G.skip (.alt G.string_value (.alt G.backquoted_quoted_string (.alt G.boolean_value
      (.alt G.number_value G.hex_value)))) .nonAtomic pos s = .fail := by
    simp only [G.value, run, bodyAtomicity] at h ⊢
    split at h <;> simp_all
  have h2 : ∀ x y : PExpr, run G.skip (.alt x y) .nonAtomic pos s = .fail →
      run G.skip x .nonAtomic pos s = .fail ∧ run G.skip y .nonAtomic pos s = .fail := by
    intro x y hxy
    simp only [run] at hxy
    split at hxy
    · exact ⟨by assumption, hxy⟩
    · rename_i hn; exact absurd hxy hn
  have h3 := (h2 _ _ (h2 _ _ (h2 _ _ h1).2).2).1
  have h4 : ∀ w t : Str, stripPrefix w (w ++ t) = some t := by
    intro w t
    induction w with
    | nil => rfl
    | cons c w ih => simpa [stripPrefix] using ih
  rcases hl with ⟨t, rfl⟩ | ⟨t, rfl⟩ | ⟨t, rfl⟩ <;>
    simp [G.boolean_value, run, bodyAtomicity, stripPrefix, emits] at h3

/-- A bare word that is tried after `value` does not begin like a literal. -/
theorem like_append {s t : Str} (h : LikeLiteral s) : LikeLiteral (s ++ t) := by
  rcases h with h | h | h
  · exact .inl (h.trans (List.prefix_append _ _))
  · exact .inr (.inl (h.trans (List.prefix_append _ _)))
  · exact .inr (.inr (h.trans (List.prefix_append _ _)))

/-- The pairs that can stand for the value of an attribute. -/
def AttrVal (p : Piece) (pr : Pair) : Prop :=
  Node .value (ValueD .loose) parseValue p pr ∨
  (pr = .mk .spaced_var p.span p.txt [] ∧ IsSpacedVar p.txt ∧ ¬ LikeLiteral p.txt) ∨
  (pr.rule = .double_quoted_string ∧ pr.span = p.span ∧ pr.text = p.txt ∧
    QuotedD .loose k!"\"" p (innerStr pr))

theorem attrVal_fold {p v : Piece} {key : Piece} {pr : Pair} (hk : IsSpacedVar key.txt)
    (hs : Sub v p) (hv : AttrVal v pr) :
    Good p (fun (a : Attribute) => a.span_range = p.span ∧ KeyD key a.key ∧ ∃ l, a.value = some l ∧ LitD AttrValueD v l ∧
        (pr.rule ≠ .double_quoted_string → LitD (fun p v => ValueD .loose p v ∨ BareD p v) v l))
      (List.foldlM (fun (acc : Attribute) p1 =>
        match p1.rule with
        | .spaced_var =>
          if acc.key.raw.isEmpty then
            .ok { acc with key := { span_range := p1.span, raw := p1.text, to_string := p1.text } }
          else
            .ok { acc with value := some { span_range := p1.span, raw := p1.text, value := .enum p1.text } }
        | .value => do
          let v ← parseValue p1
          return { acc with value := some { span_range := p1.span, raw := p1.text, value := v } }
        | .double_quoted_string =>
          .ok { acc with
            value := some { span_range := p1.span, raw := p1.text, value := .string (innerStr p1) } }
        | _ => throwRules [.value, .spaced_var, .double_quoted_string] p1)
        ({ span_range := p.span, key := { span_range := key.span, raw := key.txt, to_string := key.txt } } : Attribute)
        [pr]) := by
  rcases hv with ⟨hr, hsp, ht, hg⟩ | ⟨rfl, hb, hnl⟩ | ⟨hr, hsp, ht, hq⟩
  · walk [hr]
    refine (hg.sub hs).bind fun x hx => ?_
    exact ⟨rfl, ⟨hk, rfl⟩, _, rfl, ⟨hsp, ht, .inl hx⟩, fun _ => ⟨hsp, ht, .inl hx⟩⟩
  · walk [spaced_nonempty hk]
    exact ⟨rfl, ⟨hk, rfl⟩, _, rfl, ⟨rfl, rfl, .inr (.inl ⟨hb, hnl, rfl⟩)⟩, fun _ => ⟨rfl, rfl, .inr ⟨hb, hnl, rfl⟩⟩⟩
  · walk [hr]
    exact ⟨rfl, ⟨hk, rfl⟩, _, rfl, ⟨hsp, ht, .inr (.inr ⟨_, hq, rfl⟩)⟩, fun h => absurd rfl h⟩

theorem attr_emits : Emits G.attr .nonAtomic (Node .attribute AttributeD parseAttribute) := by
  refine emits_rule rfl ?_
  intro p rest kids h
  obtain ⟨p1, p2, k1, k2, rest1, rfl, h1, h2, hparts⟩ := seqP h
  obtain ⟨pr, rfl, rfl, hk⟩ := (spaced_emits na).inv h1
  have hparts := hparts _ .one
  have hval : Emits (.alt G.value (.alt G.spaced_var G.double_quoted_string)) .nonAtomic AttrVal := by
    intro pos c rest ps h
    rcases h with h | ⟨hf, h⟩
    · obtain ⟨pr, h1, h2⟩ := value_emits na _ _ _ _ h
      exact ⟨pr, h1, .inl h2⟩
    · rcases h with h | ⟨-, h⟩
      · obtain ⟨pr, h1, h2, h3⟩ := spaced_emits na _ _ _ _ h
        exact ⟨pr, h1, .inr (.inl ⟨h2, h3, fun hl => value_fail_like hf (like_append hl)⟩)⟩
      · obtain ⟨pr, h1, h2⟩ := dq_emits na _ _ _ _ h
        exact ⟨pr, h1, .inr (.inr h2)⟩
  rcases optP (commaItem_inv hval) h2 with ⟨he, rfl⟩ | ⟨pr2, rfl, colon, v, hp, hd, hv⟩
  · exact ⟨p1, p2, hparts, rfl, ⟨hk, rfl⟩, .inl ⟨he, rfl⟩⟩
  · have := attrVal_fold hk ((parts_sub hp _ (by simp)).trans (parts_sub hparts _ (by simp))) hv
    refine this.mono ?_
    rintro a ⟨h1, h2, l, h3, h4, -⟩
    exact ⟨p1, p2, hparts, h1, h2, .inr ⟨l, ⟨colon, v, hp, hd, h4⟩, h3⟩⟩

theorem property_emits : Emits G.property .nonAtomic (Node .property PropertyD parseProperty) := by
  refine emits_rule rfl ?_
  intro p rest kids h
  obtain ⟨p1, p2, k1, k2, rest1, rfl, h1, h2, hparts⟩ := seqP h
  obtain ⟨pr, rfl, rfl, hk⟩ := (spaced_emits na).inv h1
  obtain ⟨p3, p4, k3, k4, rest3, rfl, h3, h4, hparts2⟩ := seqP h2
  obtain ⟨hc, rfl⟩ := strP h3
  have hparts := hparts _ (hparts2 _ .one)
  have hval : Emits (.alt G.value G.spaced_var) .nonAtomic
      (fun p pr => AttrVal p pr ∧ pr.rule ≠ .double_quoted_string) := by
    intro pos c rest ps h
    rcases h with h | ⟨hf, h⟩
    · obtain ⟨pr, h1, h2⟩ := value_emits na _ _ _ _ h
      exact ⟨pr, h1, .inl h2, by rw [h2.1]; decide⟩
    · obtain ⟨pr, h1, h2, h3⟩ := spaced_emits na _ _ _ _ h
      exact ⟨pr, h1, .inr (.inl ⟨h2, h3, fun hl => value_fail_like hf (like_append hl)⟩), by rw [h2]; simp⟩
  obtain ⟨pr2, rfl, hv, hne⟩ := hval.inv h4
  have := attrVal_fold hk (parts_sub hparts _ (by simp)) hv
  refine Good.bind (x := parseAttribute _) this ?_
  rintro a ⟨h1, h2, l, h3, h4, h5⟩
  simp only [h3]
  exact ⟨_, _, _, hparts, hc, h1, h2, h5 hne⟩

theorem note_emits {a} (ha : a = .nonAtomic) :
    Emits G.note_decl a (Node .note_decl NoteD parseNoteDecl) := by
  subst ha
  refine emits_rule rfl ?_
  intro p rest kids h
  rcases altP h with h | h
  · obtain ⟨kids, rfl, hb⟩ := rule_inv h rfl
    obtain ⟨p1, p2, k1, k2, rest1, rfl, h1, h2, hparts⟩ := seqP hb
    obtain ⟨hkw, rfl⟩ := insensP h1
    obtain ⟨p3, p4, k3, k4, rest3, rfl, h3, h4, hparts2⟩ := seqP h2
    obtain ⟨hc, rfl⟩ := strP h3
    obtain ⟨pr, rfl, hr, hs, htx, hg⟩ := (string_value_emits na).inv h4
    have hparts : Parts (gapOf .nonAtomic) p _ := hparts _ (hparts2 _ .one)
    walk [parseNoteDecl, parseNoteDecl.go, parseNoteInner, hr]
    refine (hg.sub (parts_sub hparts _ (by simp))).bind fun s hs' => ?_
    exact ⟨rfl, .inl ⟨_, _, _, hparts, hkw, hc, hs, htx, _, hs', rfl⟩⟩
  · obtain ⟨kids, rfl, hb⟩ := rule_inv h rfl
    obtain ⟨p1, p2, k1, k2, rest1, rfl, h1, h2, hparts⟩ := seqP hb
    obtain ⟨hkw, rfl⟩ := insensP h1
    obtain ⟨p3, p4, k3, k4, rest3, rfl, h3, h4, hparts2⟩ := seqP h2
    obtain ⟨hc, rfl⟩ := strP h3
    obtain ⟨p5, p6, k5, k6, rest5, rfl, h5, h6, hparts3⟩ := seqP h4
    obtain ⟨hc2, rfl⟩ := strP h6
    obtain ⟨pr, rfl, hr, hs, htx, hg⟩ := (string_value_emits na).inv h5
    have hparts : Parts (gapOf .nonAtomic) p _ := hparts _ (hparts2 _ (hparts3 _ .one))
    walk [parseNoteDecl, parseNoteDecl.go, parseNoteInner, hr]
    refine (hg.sub (parts_sub hparts _ (by simp))).bind fun s hs' => ?_
    exact ⟨rfl, .inr ⟨_, _, _, _, hparts, hkw, hc, hc2, hs, htx, _, hs', rfl⟩⟩

end Dbml

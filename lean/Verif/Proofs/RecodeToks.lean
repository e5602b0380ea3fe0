import Verif.Proofs.RecodeDoc

/-!
# The tokens of a recoded document
-/

namespace Dbml
open Syntax Source

variable {e : Str} {σ : Char → Char}

section
variable (he : IsEol e) (hσ : KeepsAscii σ)
include he hσ

theorem recode_last : ∀ {s : Str} {c : Char}, (recode e σ s).getLast? = some c → PlainC c → s.getLast? = some c
  | [], c, h, _ => by simp [recode] at h
  | x :: s, c, h, hc => by
    have key : ∀ g, recode e σ (x :: s) = g ++ recode e σ s → (∀ d, g.getLast? = some d → PlainC d → d = x) →
        (x :: s).getLast? = some c := by
      intro g hg hlast
      rw [hg, List.getLast?_append] at h
      cases hl : (recode e σ s).getLast? with
      | none =>
        have hs := recode_eq_nil he hσ (List.getLast?_eq_none_iff.1 hl)
        subst hs
        rw [hl] at h
        simp only [Option.none_or] at h
        rw [hlast c h hc]
        rfl
      | some d =>
        rw [hl] at h
        simp only [Option.some_or, Option.some.injEq] at h
        subst h
        have := recode_last hl hc
        cases s with
        | nil => simp at this
        | cons y s => simpa [List.getLast?_cons_cons] using this
    rcases recode_cons he hσ x s with ⟨-, h'⟩ | ⟨-, g, h', hg, -⟩
    · exact key [x] h' fun d hd _ => by simpa using hd.symm
    · exact key g h' fun d hd hp => absurd hp (hg d (List.mem_of_getLast? hd))

omit he hσ in
theorem args_last (a : Option (List Lit)) : argsText a = [] ∨ (argsText a).getLast? = some ')' := by
  cases a with
  | none => exact .inl rfl
  | some ls =>
    refine .inr ?_
    cases ls with
    | nil => rfl
    | cons l ls =>
      simp only [argsText, ← List.append_assoc]
      rw [List.getLast?_append]
      rfl

omit he hσ in
theorem arrays_last {r : List (Option Str)} : r.flatMap arrayText = [] ∨ (r.flatMap arrayText).getLast? = some ']' := by
  induction r with
  | nil => exact .inl rfl
  | cons x r ih =>
    refine .inr ?_
    rw [List.flatMap_cons, List.getLast?_append]
    rcases ih with ih | ih
    · rw [ih]
      simp only [List.getLast?_nil, Option.none_or, arrayText]
      rw [← List.cons_append, List.getLast?_append]
      rfl
    · rw [ih]; rfl

omit he hσ in
theorem last_append {a b : Str} (hb : b = [] ∨ ∃ c, b.getLast? = some c ∧ PlainC c) (ha : ∃ c, a.getLast? = some c ∧ PlainC c) :
    ∃ c, (a ++ b).getLast? = some c ∧ PlainC c := by
  rcases hb with rfl | ⟨c, h1, h2⟩
  · simpa using ha
  · exact ⟨c, by rw [List.getLast?_append, h1]; rfl, h2⟩

omit he hσ in
theorem last_append' {a b : Str} (hb : b = [] ∨ ∃ c, b.getLast? = some c ∧ PlainC c) (ha : a = [] ∨ ∃ c, a.getLast? = some c ∧ PlainC c) :
    a ++ b = [] ∨ ∃ c, (a ++ b).getLast? = some c ∧ PlainC c := by
  rcases ha with rfl | ha
  · simpa using hb
  · exact .inr (last_append hb ha)

omit he hσ in
theorem plain_last {s : Str} (h : PlainS s) (hne : s ≠ []) : ∃ c, s.getLast? = some c ∧ PlainC c :=
  ⟨_, List.getLast?_eq_some_getLast hne, h _ (List.getLast_mem hne)⟩

omit he hσ in
theorem body_last {b : TBody} (h : b.Ok) : ∃ c, b.text.getLast? = some c ∧ PlainC c := by
  have hargs : ∀ a, argsText a = [] ∨ ∃ c, (argsText a).getLast? = some c ∧ PlainC c := fun a => by
    rcases args_last a with h | h
    · exact .inl h
    · exact .inr ⟨_, h, by decide⟩
  have harr : ∀ r : List (Option Str), r.flatMap arrayText = [] ∨ ∃ c, (r.flatMap arrayText).getLast? = some c ∧ PlainC c := fun r => by
    rcases arrays_last (r := r) with h | h
    · exact .inl h
    · exact .inr ⟨_, h, by decide⟩
  cases b with
  | plain n a r =>
    exact last_append (last_append' (harr r) (hargs a)) (plain_last (isVar_plain h.1) (isVar_ne h.1))
  | quoted n a r r' =>
    have := last_append (harr r') (a := k!"\"") ⟨'"', rfl, by decide⟩
    exact last_append (last_append' (last_append' (last_append' (.inr this) (harr r)) (hargs a))
      (.inr (plain_last (isSpacedVar_plain h.1) (isSpacedVar_ne h.1)))) (a := k!"\"") ⟨'"', rfl, by decide⟩

theorem ty_head {t : Ty} (h : t.Ok) (b : Str) : (t.text ++ b).head? ≠ some '\n' := by
  have hbody : ∀ b, (t.body.text ++ b).head? ≠ some '\n' := by
    intro b
    have := h.2.1.1
    cases hb : t.body with
    | plain n a r =>
      rw [hb] at this
      obtain ⟨c, cs, rfl, hc, -⟩ := this
      simp only [TBody.text, List.cons_append, List.head?_cons, ne_eq, Option.some.injEq]
      rintro rfl
      exact absurd hc (by decide)
    | quoted n a r r' => simp [TBody.text]
  unfold Ty.text
  cases hs : t.schema with
  | none => exact hbody b
  | some s =>
    have := h.1 s hs
    cases s with
    | word w =>
      obtain ⟨c, cs, rfl, hc, -⟩ := this
      simp only [Name.text, List.cons_append, List.head?_cons, ne_eq, Option.some.injEq]
      rintro rfl
      exact absurd hc (by decide)
    | quoted x =>
      simp only [Name.text, List.append_assoc]
      exact quote_head (.inl rfl) x _

theorem tm_ty {t : Ty} (h : t.Ok) : TokMap e σ t.tok (t.recode e σ).tok where
  txt := rc_ty_text he hσ h
  next := by
    rintro r ⟨h1, h2⟩
    refine ⟨?_, fun hp => h2 ((recode_prefix he hσ (by decide)).1 hp)⟩
    rintro ⟨cs, c, hc, hw⟩
    rw [rc_ty_text he hσ h] at hc
    have hl := recode_last he hσ (s := t.text) (c := c) (by rw [hc]; simp) (word_plain hw)
    obtain ⟨cs', hcs'⟩ := List.getLast?_eq_some_iff.1 hl
    exact recode_next_word he hσ (h1 ⟨cs', c, hcs', hw⟩)
  head := ty_head he hσ h
  last := by
    obtain ⟨c, h1, h2⟩ := body_last h.2.1
    have : t.text.getLast? = some c := by
      unfold Ty.text
      cases hs : t.schema with
      | none => exact h1
      | some s =>
        rw [List.getLast?_append]
        cases hb : t.body.text with
        | nil => rw [hb] at h1; simp at h1
        | cons x xs => rw [hb] at h1; rw [List.getLast?_cons_cons, h1]; rfl
    show t.text.getLast? ≠ some '\r'
    rw [this]
    rintro hc
    injection hc with hc
    exact h2.2.2 hc

/-! ## Lists of tokens -/

/-- Token lists, token by token. -/
abbrev TM (e : Str) (σ : Char → Char) (ts ts' : List Tok) : Prop := List.Forall₂ (TokMap e σ) ts ts'

omit he hσ in
theorem tm_app {a a' b b' : List Tok} (h1 : TM e σ a a') (h2 : TM e σ b b') : TM e σ (a ++ b) (a' ++ b') :=
  List.rel_append h1 h2

omit he hσ in
theorem tm_flatMap {α : Type} {P : α → Prop} {f : α → List Tok} {m : α → α} {l : List α} (hl : ∀ x ∈ l, P x)
    (h : ∀ x, P x → TM e σ (f x) (f (m x))) : TM e σ (l.flatMap f) ((l.map m).flatMap f) := by
  induction l with
  | nil => exact .nil
  | cons x l ih =>
    simp only [List.flatMap_cons, List.map_cons]
    exact tm_app (h x (hl x (by simp))) (ih fun y hy => hl y (by simp [hy]))

omit he in
theorem tm_tok {s : Str} (h : PlainS s) (hne : s ≠ []) : TokMap e σ { txt := s } { txt := s } := tm_sym hσ h hne rfl

omit he in
theorem tm_commaSep {α : Type} {P : α → Prop} {f : α → List Tok} {m : α → α} {l : List α} (hl : ∀ x ∈ l, P x)
    (h : ∀ x, P x → TM e σ (f x) (f (m x))) : TM e σ (commaSep f l) (commaSep f (l.map m)) := by
  cases l with
  | nil => exact .nil
  | cons x l =>
    refine tm_app (h x (hl x (by simp))) ?_
    exact tm_flatMap (f := fun y => comma :: f y) (fun y hy => hl y (by simp [hy]))
      fun y hy => .cons (tm_tok hσ (by decide) (by decide)) (h y hy)

omit he in
theorem tm_optBrackets {α : Type} {P : α → Prop} {f : α → List Tok} {m : α → α} {o : Option (List α)}
    (hl : ∀ l, o = some l → ∀ x ∈ l, P x)
    (h : ∀ x, P x → TM e σ (f x) (f (m x))) : TM e σ (optBrackets f o) (optBrackets f (o.map (List.map m))) := by
  cases o with
  | none => exact .nil
  | some l =>
    exact .cons (tm_tok hσ (by decide) (by decide))
      (tm_app (tm_commaSep hσ (hl l rfl) h) (.cons (tm_tok hσ (by decide) (by decide)) .nil))

omit he in
theorem tm_kw {k s : Str} (h : Keyword k s) (hk : PlainS (k.map lowerC)) (hne : k ≠ []) : TokMap e σ { txt := s } { txt := s } :=
  tm_tok hσ (keyword_plain h hk) (keyword_nonempty h hne)

theorem tm_attr {a : Attr} (h : a.Ok) : TM e σ a.toks (a.recode e σ).toks := by
  unfold Attr.toks Attr.recode
  refine .cons (tm_key he hσ h.1) ?_
  cases hv : a.value with
  | none => exact .nil
  | some v => exact .cons (tm_tok hσ (by decide) (by decide)) (.cons (tm_aval he hσ (h.2 v hv)) .nil)

theorem tm_attrs {o : Option (List Attr)} (hl : ∀ l, o = some l → ∀ x ∈ l, x.Ok) :
    TM e σ (optBrackets Attr.toks o) (optBrackets Attr.toks (o.map (List.map (·.recode e σ)))) :=
  tm_optBrackets hσ hl fun _ => tm_attr he hσ

theorem tm_note {n : Note} (h : n.Ok) : TM e σ n.toks (n.recode e σ).toks := by
  unfold Note.toks Note.recode
  refine .cons (tm_kw hσ h.1 (by decide) (by decide)) ?_
  dsimp only
  split
  · exact .cons (tm_tok hσ (by decide) (by decide)) (.cons (tm_str he hσ h.2) (.cons (tm_tok hσ (by decide) (by decide)) .nil))
  · exact .cons (tm_tok hσ (by decide) (by decide)) (.cons (tm_str he hσ h.2) .nil)

theorem tm_projItem {i : ProjItem} (h : i.Ok) : TM e σ i.toks (i.recode e σ).toks := by
  cases i with
  | note n => exact tm_note he hσ h
  | prop k v => exact .cons (tm_key he hσ h.1) (.cons (tm_tok hσ (by decide) (by decide)) (.cons (tm_aval he hσ h.2.1) .nil))

omit he in
theorem tm_braces {α : Type} {P : α → Prop} {f : α → List Tok} {m : α → α} {l : List α} (hl : ∀ x ∈ l, P x)
    (h : ∀ x, P x → TM e σ (f x) (f (m x))) : TM e σ (lbrace :: (l.flatMap f ++ [rbrace])) (lbrace :: ((l.map m).flatMap f ++ [rbrace])) :=
  .cons (tm_tok hσ (by decide) (by decide)) (tm_app (tm_flatMap hl h) (.cons (tm_tok hσ (by decide) (by decide)) .nil))

theorem tm_project {p : Project} (h : p.Ok) : TM e σ p.toks (p.recode e σ).toks :=
  .cons (tm_kw hσ h.1 (by decide) (by decide)) (.cons (tm_name he hσ h.2.1) (tm_braces hσ h.2.2 fun _ => tm_projItem he hσ))

theorem tm_qual {s : Option Name} {n : Name} (hs : ∀ x, s = some x → x.Ok) (hn : n.Ok) :
    TM e σ (qualToks s n) (qualToks (s.map (·.recode e σ)) (n.recode e σ)) := by
  cases s with
  | none => exact .cons (tm_name he hσ hn) .nil
  | some x => exact .cons (tm_name he hσ (hs x rfl)) (.cons (tm_tok hσ (by decide) (by decide)) (.cons (tm_name he hσ hn) .nil))

theorem tm_comp {c : Comp} (h : ∀ n ∈ c.names, n.Ok) : TM e σ c.toks (c.recode e σ).toks := by
  cases c with
  | one n => exact .cons (tm_name he hσ (h n (by simp [Comp.names]))) .nil
  | many n ns =>
    exact .cons (tm_tok hσ (by decide) (by decide)) (tm_app
      (tm_commaSep hσ (f := fun m : Name => [m.tok]) (l := n :: ns) h fun _ hx => .cons (tm_name he hσ hx) .nil)
      (.cons (tm_tok hσ (by decide) (by decide)) .nil))

theorem tm_rend {r : REnd} (h : r.Ok) : TM e σ r.toks (r.recode e σ).toks :=
  tm_app (tm_qual he hσ h.1 h.2.1) (.cons (tm_tok hσ (by decide) (by decide)) (tm_comp he hσ h.2.2))

omit he in
theorem tm_rel {r : Relation} (h : r ≠ .undef) : TokMap e σ (relTok r) (relTok r) := by
  cases r with
  | undef => exact absurd rfl h
  | _ => exact tm_tok hσ (by decide) (by decide)

theorem tm_inline {r : InlineRef} (h : r.Ok) : TM e σ r.toks (r.recode e σ).toks :=
  .cons (tm_tok hσ (by decide) (by decide)) (.cons (tm_tok hσ (by decide) (by decide)) (.cons (tm_rel hσ h.1) (tm_rend he hσ h.2)))

theorem tm_ref {r : Ref} (h : r.Ok) : TM e σ r.toks (r.recode e σ).toks := by
  have hst : TM e σ r.stmtToks (r.recode e σ).stmtToks :=
    tm_app (tm_rend he hσ h.2.2.1) (.cons (tm_rel hσ h.2.2.2.1) (tm_app (tm_rend he hσ h.2.2.2.2.1)
      (tm_attrs he hσ fun as has => (h.2.2.2.2.2 as has).1)))
  unfold Ref.toks
  refine .cons (tm_kw hσ h.1 (by decide) (by decide)) (tm_app ?_ ?_)
  · cases hn : r.name with
    | none => simp [Ref.recode, hn]
    | some n => simpa [Ref.recode, hn] using tm_name he hσ (h.2.1 n hn)
  · show TM e σ (if r.braced then _ else _) (if r.braced then _ else _)
    split
    · exact .cons (tm_tok hσ (by decide) (by decide)) (tm_app hst (.cons (tm_tok hσ (by decide) (by decide)) .nil))
    · exact .cons (tm_tok hσ (by decide) (by decide)) hst

theorem tm_icol {c : ICol} (h : c.Ok) : TokMap e σ c.tok (c.recode e σ).tok := by
  cases c with
  | name n => exact tm_name he hσ h
  | expr x => exact tokMap_quote he hσ (.inr (.inr (.inr rfl))) h rfl rfl rfl rfl

theorem tm_idef {d : IDef} (h : d.Ok) : TM e σ d.toks (d.recode e σ).toks := by
  cases d with
  | single c s =>
    exact .cons (tm_icol he hσ (h.1 c (by simp [IDef.cols]))) (tm_attrs he hσ fun as has => (h.2 as has).1)
  | multi cs s =>
    exact .cons (tm_tok hσ (by decide) (by decide)) (tm_app
      (tm_commaSep hσ (f := fun c : ICol => [c.tok]) (l := cs) h.1 fun _ hx => .cons (tm_icol he hσ hx) .nil)
      (.cons (tm_tok hσ (by decide) (by decide)) (tm_attrs he hσ fun as has => (h.2 as has).1)))

theorem tm_idxs {i : Idxs} (h : i.Ok) : TM e σ i.toks (i.recode e σ).toks :=
  .cons (tm_kw hσ h.1 (by decide) (by decide)) (tm_braces hσ h.2 fun _ => tm_idef he hσ)

theorem tm_eval {v : EVal} (h : v.Ok) : TM e σ v.toks (v.recode e σ).toks :=
  .cons (tm_name he hσ h.1) (tm_attrs he hσ h.2)

theorem tm_enum {x : Source.Enum} (h : x.Ok) : TM e σ x.toks (x.recode e σ).toks :=
  .cons (tm_kw hσ h.1 (by decide) (by decide)) (tm_app (tm_qual he hσ h.2.1 h.2.2.1) (tm_braces hσ h.2.2.2 fun _ => tm_eval he hσ))

theorem tm_colSet {i : ColSet} (h : i.Ok) : TM e σ i.toks (i.recode e σ).toks := by
  cases i with
  | attr a => exact tm_attr he hσ h
  | ref r => exact tm_inline he hσ h

theorem tm_col {c : Col} (h : c.Ok) : TM e σ c.toks (c.recode e σ).toks :=
  .cons (tm_name he hσ h.1) (.cons (tm_ty he hσ h.2.1) (tm_optBrackets hσ h.2.2 fun _ => tm_colSet he hσ))

theorem tm_titem {i : TItem} (h : i.Ok) : TM e σ i.toks (i.recode e σ).toks := by
  cases i with
  | col c => exact tm_col he hσ h
  | note n => exact tm_note he hσ h
  | indexes x => exact tm_idxs he hσ h

theorem tm_alias {t : Table} (h : t.Ok) : TM e σ t.aliasToks (t.recode e σ).aliasToks := by
  unfold Table.aliasToks Table.recode
  cases ha : t.alias with
  | none => exact .nil
  | some a =>
    have := h.2.2.2.1 a ha
    exact .cons (tm_kw hσ this.1 (by decide) (by decide)) (.cons (tm_name he hσ this.2) .nil)

theorem tm_table {t : Table} (h : t.Ok) : TM e σ t.toks (t.recode e σ).toks :=
  .cons (tm_kw hσ h.1 (by decide) (by decide)) (tm_app (tm_qual he hσ h.2.1 h.2.2.1) (tm_app (tm_alias he hσ h)
    (tm_app (tm_attrs he hσ h.2.2.2.2.1) (tm_braces hσ h.2.2.2.2.2 fun _ => tm_titem he hσ))))

theorem tm_gitem {i : GItem} (h : i.Ok) : TM e σ i.toks (i.recode e σ).toks := by
  cases i with
  | note n => exact tm_note he hσ h
  | item s n => exact tm_qual he hσ h.1 h.2

theorem tm_group {g : Group} (h : g.Ok) : TM e σ g.toks (g.recode e σ).toks :=
  .cons (tm_kw hσ h.1 (by decide) (by decide)) (.cons (tm_name he hσ h.2.1)
    (tm_app (tm_attrs he hσ h.2.2.1) (tm_braces hσ h.2.2.2 fun _ => tm_gitem he hσ)))

theorem tm_block {b : Block} (h : b.Ok) : TM e σ b.toks (b.recode e σ).toks := by
  cases b with
  | project x => exact tm_project he hσ h
  | table x => exact tm_table he hσ h
  | group x => exact tm_group he hσ h
  | note x => exact tm_note he hσ h
  | ref x => exact tm_ref he hσ h
  | enum x => exact tm_enum he hσ h

theorem tm_doc {d : Doc} (h : d.Ok) : TM e σ d.toks (Doc.recode e σ d).toks := tm_flatMap h fun _ => tm_block he hσ

end

end Dbml

import Verif.Proofs.Recode
import Verif.Proofs.FloatShow

/-!
# Recoding a document
-/

namespace Dbml
open Syntax Source

/-! ## Displayed values are plain -/

theorem digit_plain {c : Char} (h : c.isDigit = true) : PlainC c := word_plain (.inl (by simp [Char.isAlphanum, h]))

theorem digits_plain {s : Str} (h : ∀ c ∈ s, c.isDigit = true) : PlainS s := fun c hc => digit_plain (h c hc)

theorem natDigits_plain (n : Nat) : PlainS (Nat.toDigits 10 n) := digits_plain (natDigits_isDigits n).2

theorem displayInt_plain (n : Int) : PlainS (displayInt n) := by
  cases n with
  | ofNat k => exact natDigits_plain k
  | negSucc k =>
    intro c hc
    rcases List.mem_cons.1 hc with rfl | hc
    · decide
    · exact natDigits_plain (k + 1) c hc

theorem f64plain_plain (d : Nat) (x : Int) : PlainS (F64.plain d x) := by
  unfold F64.plain
  dsimp only
  split
  · exact natDigits_plain _
  · have hds : PlainS (List.replicate ((-x).toNat + 1 - (F64.natDigits d).length) '0' ++ F64.natDigits d) := by
      intro c hc
      rcases List.mem_append.1 hc with hc | hc
      · rw [(List.mem_replicate.1 hc).2]; decide
      · exact natDigits_plain d c hc
    generalize List.replicate ((-x).toNat + 1 - (F64.natDigits d).length) '0' ++ F64.natDigits d = ds at hds ⊢
    have hfp : PlainS ((ds.drop (ds.length - (-x).toNat)).reverse.dropWhile (· = '0')).reverse := by
      intro c hc
      have := (List.dropWhile_sublist _).subset (List.mem_reverse.1 hc)
      exact hds c (List.mem_of_mem_drop (List.mem_reverse.1 this))
    split
    · intro c hc; exact hds c (List.mem_of_mem_take hc)
    · intro c hc
      rcases List.mem_append.1 hc with hc | hc
      · rcases List.mem_append.1 hc with hc | hc
        · exact hds c (List.mem_of_mem_take hc)
        · rw [List.mem_singleton.1 hc]; decide
      · exact hfp c hc

theorem display_plain (v : F64) : PlainS v.display := by
  unfold F64.display
  split
  · decide
  · split
    · decide
    · exact f64plain_plain _ _

variable {e : Str} {σ : Char → Char}

theorem recode_eq_plain (he : IsEol e) (hσ : KeepsAscii σ) : ∀ {q s : Str}, PlainS q → (recode e σ s = q ↔ s = q)
  | [], s, _ => ⟨recode_eq_nil he hσ, fun h => by rw [h]; rfl⟩
  | c :: q, s, hq => by
    constructor
    · intro h
      obtain ⟨s', rfl, h'⟩ := recode_head he hσ h (hq c (by simp))
      rw [(recode_eq_plain he hσ fun x hx => hq x (by simp [hx])).1 h']
    · rintro rfl; exact recode_id hσ hq

theorem toStr_mapText (hσ : KeepsAscii σ) (v : Value) : (v.mapText (recode e σ)).toStr = recode e σ v.toStr := by
  cases v with
  | integer n => exact (recode_id hσ (displayInt_plain n)).symm
  | decimal x => exact (recode_id hσ (display_plain x)).symm
  | bool b =>
    cases b
    · exact (recode_id hσ (s := k!"false") (by decide)).symm
    · exact (recode_id hσ (s := k!"true") (by decide)).symm
  | null => exact (recode_id hσ (s := k!"null") (by decide)).symm
  | _ => rfl

/-! ## The recoded document -/

section
variable (e σ)

def Source.Name.recode : Name → Name
  | .word s => .word s
  | .quoted x => .quoted (x.recode e σ)
def Source.StrLit.recode : StrLit → StrLit
  | .single x => .single (x.recode e σ)
  | .triple x => .triple (x.recode e σ)
def Source.Lit.recode : Lit → Lit
  | .str l => .str (l.recode e σ)
  | .expr x => .expr (x.recode e σ)
  | l => l
def Source.AVal.recode : AVal → AVal
  | .lit l => .lit (l.recode e σ)
  | .word s => .word s
  | .dq x => .dq (x.recode e σ)
def Source.Attr.recode (a : Attr) : Attr := { a with value := a.value.map (·.recode e σ) }
def Source.Note.recode (n : Note) : Note := { n with text := n.text.recode e σ }
def Source.ProjItem.recode : ProjItem → ProjItem
  | .note n => .note (n.recode e σ)
  | .prop k v => .prop k (v.recode e σ)
def Source.Project.recode (p : Project) : Project :=
  { p with name := p.name.recode e σ, items := p.items.map (·.recode e σ) }
def Source.Comp.recode : Comp → Comp
  | .one n => .one (n.recode e σ)
  | .many n ns => .many (n.recode e σ) (ns.map (·.recode e σ))
def Source.REnd.recode (r : REnd) : REnd :=
  { schema := r.schema.map (·.recode e σ), table := r.table.recode e σ, cols := r.cols.recode e σ }
def Source.InlineRef.recode (r : InlineRef) : InlineRef := { r with rhs := r.rhs.recode e σ }
def Source.Ref.recode (r : Ref) : Ref :=
  { r with name := r.name.map (·.recode e σ), lhs := r.lhs.recode e σ, rhs := r.rhs.recode e σ
           settings := r.settings.map (List.map (·.recode e σ)) }
def Source.ICol.recode : ICol → ICol
  | .name n => .name (n.recode e σ)
  | .expr x => .expr (x.recode e σ)
def Source.IDef.recode : IDef → IDef
  | .single c s => .single (c.recode e σ) (s.map (List.map (·.recode e σ)))
  | .multi cs s => .multi (cs.map (·.recode e σ)) (s.map (List.map (·.recode e σ)))
def Source.Idxs.recode (i : Idxs) : Idxs := { i with defs := i.defs.map (·.recode e σ) }
def Source.EVal.recode (v : EVal) : EVal :=
  { name := v.name.recode e σ, settings := v.settings.map (List.map (·.recode e σ)) }
def Source.Enum.recode (x : Source.Enum) : Source.Enum :=
  { x with schema := x.schema.map (·.recode e σ), name := x.name.recode e σ, values := x.values.map (·.recode e σ) }
def Source.TBody.recode : TBody → TBody
  | .plain n a r => .plain n (a.map (List.map (·.recode e σ))) r
  | .quoted n a r r' => .quoted n (a.map (List.map (·.recode e σ))) r r'
def Source.Ty.recode (t : Ty) : Ty := { schema := t.schema.map (·.recode e σ), body := t.body.recode e σ }
def Source.ColSet.recode : ColSet → ColSet
  | .attr a => .attr (a.recode e σ)
  | .ref r => .ref (r.recode e σ)
def Source.Col.recode (c : Col) : Col :=
  { name := c.name.recode e σ, type := c.type.recode e σ, settings := c.settings.map (List.map (·.recode e σ)) }
def Source.TItem.recode : TItem → TItem
  | .col c => .col (c.recode e σ)
  | .note n => .note (n.recode e σ)
  | .indexes i => .indexes (i.recode e σ)
def Source.Alias.recode (a : Alias) : Alias := { a with name := a.name.recode e σ }
def Source.Table.recode (t : Table) : Table :=
  { t with schema := t.schema.map (·.recode e σ), name := t.name.recode e σ, «alias» := t.alias.map (·.recode e σ)
           settings := t.settings.map (List.map (·.recode e σ)), items := t.items.map (·.recode e σ) }
def Source.GItem.recode : GItem → GItem
  | .note n => .note (n.recode e σ)
  | .item s n => .item (s.map (·.recode e σ)) (n.recode e σ)
def Source.Group.recode (g : Group) : Group :=
  { g with name := g.name.recode e σ, settings := g.settings.map (List.map (·.recode e σ))
           items := g.items.map (·.recode e σ) }
def Source.Block.recode : Block → Block
  | .project p => .project (p.recode e σ)
  | .table t => .table (t.recode e σ)
  | .group g => .group (g.recode e σ)
  | .note n => .note (n.recode e σ)
  | .ref r => .ref (r.recode e σ)
  | .enum x => .enum (x.recode e σ)
def Source.Doc.recode (d : Doc) : Doc := d.map (·.recode e σ)

end

section
variable (he : IsEol e) (hσ : KeepsAscii σ)
include he hσ


/-! ## Well-formedness -/

theorem rc_name_ok {n : Name} (h : n.Ok) : (n.recode e σ).Ok := by
  cases n with
  | word s => exact h
  | quoted x => exact quote_recode_ok he hσ (.inl rfl) h

theorem rc_name_tight {n : Name} (h : n.Tight) : (n.recode e σ).Tight := by
  cases n with
  | word s => exact h
  | quoted x => exact quote_recode_tight he hσ (.inl rfl) h

theorem rc_str_ok {l : StrLit} (h : l.Ok) : (l.recode e σ).Ok := by
  cases l with
  | single x => exact quote_recode_ok he hσ (.inr (.inl rfl)) h
  | triple x => exact quote_recode_ok he hσ (.inr (.inr (.inl rfl))) h

theorem rc_str_tight {l : StrLit} (h : l.Tight) : (l.recode e σ).Tight := by
  cases l with
  | single x => exact quote_recode_tight he hσ (.inr (.inl rfl)) h
  | triple x => exact quote_recode_tight he hσ (.inr (.inr (.inl rfl))) h

theorem rc_lit_ok {l : Lit} (h : l.Ok) : (l.recode e σ).Ok := by
  cases l with
  | str l => exact rc_str_ok he hσ h
  | expr x => exact quote_recode_ok he hσ (.inr (.inr (.inr rfl))) h
  | _ => exact h

theorem rc_lit_tight {l : Lit} (h : l.Tight) : (l.recode e σ).Tight := by
  cases l with
  | str l => exact rc_str_tight he hσ h
  | expr x => exact quote_recode_tight he hσ (.inr (.inr (.inr rfl))) h
  | _ => exact h

theorem rc_aval_ok {v : AVal} (h : v.Ok) : (v.recode e σ).Ok := by
  cases v with
  | lit l => exact rc_lit_ok he hσ h
  | word s => exact h
  | dq x => exact quote_recode_ok he hσ (.inl rfl) h

theorem rc_attr_ok {a : Attr} (h : a.Ok) : (a.recode e σ).Ok := by
  refine ⟨h.1, fun v hv => ?_⟩
  obtain ⟨w, hw, rfl⟩ := Option.map_eq_some_iff.1 hv
  exact rc_aval_ok he hσ (h.2 w hw)

theorem rc_attrs_ok {as : List Attr} (h : ∀ a ∈ as, a.Ok) : ∀ a ∈ as.map (·.recode e σ), a.Ok := by
  intro a ha
  obtain ⟨b, hb, rfl⟩ := List.mem_map.1 ha
  exact rc_attr_ok he hσ (h b hb)

omit he hσ in
theorem rc_opt {α : Type} {P : α → Prop} {m : α → α} {o : Option α} (h : ∀ x, o = some x → P x) (hm : ∀ x, P x → P (m x)) :
    ∀ x, o.map m = some x → P x := by
  intro x hx
  obtain ⟨w, hw, rfl⟩ := Option.map_eq_some_iff.1 hx
  exact hm w (h w hw)

omit he hσ in
theorem rc_mem {α : Type} {P : α → Prop} {m : α → α} {l : List α} (h : ∀ x ∈ l, P x) (hm : ∀ x, P x → P (m x)) :
    ∀ x ∈ l.map m, P x := by
  intro x hx
  obtain ⟨w, hw, rfl⟩ := List.mem_map.1 hx
  exact hm w (h w hw)

/-! ## Values -/

theorem rc_lit_value {l : Lit} (h : l.NumOk) : (l.recode e σ).value = l.value.mapText (recode e σ) := by
  cases l with
  | str l => cases l <;> rfl
  | hex x =>
    have hp : PlainS ('#' :: x) := by
      intro c hc
      rcases List.mem_cons.1 hc with rfl | hc
      · decide
      · exact hex_plain (h.1 c hc)
    simp only [Source.Lit.recode, Source.Lit.value, Value.mapText, recode_id hσ hp]
  | _ => rfl

theorem lit_num {l : Lit} (h : l.Ok) : l.NumOk := by cases l <;> first | trivial | exact h
theorem lit_num' {l : Lit} (h : l.Tight) : l.NumOk := by cases l <;> first | trivial | exact h

theorem rc_aval_value {v : AVal} (h : v.Ok) : (v.recode e σ).value = v.value.mapText (recode e σ) := by
  cases v with
  | lit l => exact rc_lit_value he hσ (lit_num he hσ h)
  | word s => simp only [Source.AVal.recode, Source.AVal.value, Value.mapText, recode_id hσ (isSpacedVar_plain h.1)]
  | dq x => rfl

theorem rc_str_text {l : StrLit} (h : l.Ok) : (l.recode e σ).text = recode e σ l.text := by
  cases l with
  | single x => exact recode_text hσ (.inr (.inl rfl)) (.inr h.2.2.1)
  | triple x => exact recode_text hσ (.inr (.inr (.inl rfl))) (.inr h.2.2.1)

theorem rc_str_text' {l : StrLit} (h : l.Tight) : (l.recode e σ).text = recode e σ l.text := by
  cases l with
  | single x => exact recode_text hσ (.inr (.inl rfl)) (.inl h.1)
  | triple x => exact recode_text hσ (.inr (.inr (.inl rfl))) (.inl h.1)

theorem num_plain {l : Lit} (h : l.NumOk) : (∃ x, l = .str x) ∨ (∃ x, l = .expr x) ∨
    (l.recode e σ = l ∧ PlainS l.text ∧ l.text ≠ [] ∧ (∀ x, l ≠ .str x) ∧ ∀ x, l ≠ .expr x) := by
  cases l with
  | str l => exact .inl ⟨l, rfl⟩
  | expr x => exact .inr (.inl ⟨x, rfl⟩)
  | tru => exact .inr (.inr ⟨rfl, by decide, by decide, by simp, by simp⟩)
  | fls => exact .inr (.inr ⟨rfl, by decide, by decide, by simp, by simp⟩)
  | null => exact .inr (.inr ⟨rfl, by decide, by decide, by simp, by simp⟩)
  | int ds => exact .inr (.inr ⟨rfl, digits_plain h.1.2, h.1.1, by simp, by simp⟩)
  | dec a b =>
    refine .inr (.inr ⟨rfl, ?_, by simp [Source.Lit.text], by simp, by simp⟩)
    intro c hc
    rcases List.mem_append.1 hc with hc | hc
    · exact digit_plain (h.1.2 c hc)
    · rcases List.mem_cons.1 hc with rfl | hc
      · decide
      · exact digit_plain (h.2 c hc)
  | hex x =>
    refine .inr (.inr ⟨rfl, ?_, by simp [Source.Lit.text], by simp, by simp⟩)
    intro c hc
    rcases List.mem_cons.1 hc with rfl | hc
    · decide
    · exact hex_plain (h.1 c hc)

theorem rc_lit_text {l : Lit} (h : l.Ok) : (l.recode e σ).text = recode e σ l.text := by
  rcases num_plain he hσ (lit_num he hσ h) with ⟨x, rfl⟩ | ⟨x, rfl⟩ | ⟨h1, h2, -⟩
  · exact rc_str_text he hσ h
  · exact recode_text hσ (.inr (.inr (.inr rfl))) (.inr h.2.2.1)
  · rw [h1, recode_id hσ h2]

theorem rc_lit_text' {l : Lit} (h : l.Tight) : (l.recode e σ).text = recode e σ l.text := by
  rcases num_plain he hσ (lit_num' he hσ h) with ⟨x, rfl⟩ | ⟨x, rfl⟩ | ⟨h1, h2, -⟩
  · exact rc_str_text' he hσ h
  · exact recode_text hσ (.inr (.inr (.inr rfl))) (.inl h.1)
  · rw [h1, recode_id hσ h2]

theorem lit_ends {l : Lit} (h : l.NumOk) : l.text.getLast? ≠ some '\r' ∧ ∀ b, (l.text ++ b).head? ≠ some '\n' := by
  rcases num_plain he hσ h with ⟨x, rfl⟩ | ⟨x, rfl⟩ | ⟨-, h2, h3, -⟩
  · cases x with
    | single x => exact ⟨quote_last (.inr (.inl rfl)) x, quote_head (.inr (.inl rfl)) x⟩
    | triple x => exact ⟨quote_last (.inr (.inr (.inl rfl))) x, quote_head (.inr (.inr (.inl rfl))) x⟩
  · exact ⟨quote_last (.inr (.inr (.inr rfl))) x, quote_head (.inr (.inr (.inr rfl))) x⟩
  · refine ⟨fun hl => (h2 _ (List.mem_of_getLast? hl)).2.2 rfl, fun b => ?_⟩
    cases ht : l.text with
    | nil => exact absurd ht h3
    | cons c cs => simpa using (h2 c (by simp [ht])).2.1

theorem rc_aval_text {v : AVal} (h : v.Ok) : (v.recode e σ).text = recode e σ v.text := by
  cases v with
  | lit l => exact rc_lit_text he hσ h
  | word s => exact (recode_id hσ (isSpacedVar_plain h.1)).symm
  | dq x => exact recode_text hσ (.inl rfl) (.inr h.2.2.1)

theorem rc_aval_ast {v : AVal} (h : v.Ok) : (v.recode e σ).ast = v.ast.mapText (recode e σ) := by
  simp only [Source.AVal.ast, Literal.mapText, rc_aval_text he hσ h, rc_aval_value he hσ h]

theorem rc_name_text {n : Name} (h : n.Ok) : (n.recode e σ).text = recode e σ n.text := by
  cases n with
  | word s => exact (recode_id hσ (isVar_plain h)).symm
  | quoted x => exact recode_text hσ (.inl rfl) (.inr h.2.2.1)

theorem rc_name_ast {n : Name} (h : n.Ok) : (n.recode e σ).ast = n.ast.mapText (recode e σ) := by
  simp only [Source.Name.ast, Ident.mapText, rc_name_text he hσ h]
  cases n with
  | word s => simp only [Source.Name.recode, Source.Name.value, recode_id hσ (isVar_plain h)]
  | quoted x => rfl

theorem rc_key {k : Str} (h : IsSpacedVar k) : keyAst k = (keyAst k).mapText (recode e σ) := by
  simp only [keyAst, Ident.mapText, recode_id hσ (isSpacedVar_plain h)]

theorem rc_str_ast {l : StrLit} (h : l.Ok) : (l.recode e σ).ast = l.ast.mapText (recode e σ) := by
  simp only [Source.StrLit.ast, Literal.mapText, rc_str_text he hσ h]
  cases l <;> rfl

theorem rc_attr_ast {a : Attr} (h : a.Ok) : (a.recode e σ).ast = a.ast.mapText (recode e σ) := by
  simp only [Source.Attr.ast, Attribute.mapText, Source.Attr.recode, ← rc_key he hσ h.1, Option.map_map]
  congr 1
  cases hv : a.value with
  | none => rfl
  | some v => simp only [Option.map_some, Function.comp, rc_aval_ast he hσ (h.2 v hv)]

omit he hσ in
theorem map_opt' {α β : Type} {m : α → α} {g : α → β} {k : β → β} {o : Option α} {P : α → Prop}
    (h : ∀ x, P x → g (m x) = k (g x)) (hl : ∀ x, o = some x → P x) : (o.map m).map g = (o.map g).map k := by
  cases o with
  | none => rfl
  | some x => simp only [Option.map_some, h x (hl x rfl)]

omit he hσ in
theorem map_list' {α β : Type} {m : α → α} {g : α → β} {k : β → β} {l : List α} {P : α → Prop}
    (h : ∀ x, P x → g (m x) = k (g x)) (hl : ∀ x ∈ l, P x) : (l.map m).map g = (l.map g).map k := by
  simp only [List.map_map]
  exact List.map_congr_left fun x hx => h x (hl x hx)

omit he hσ in
theorem filterMap_list' {α β : Type} {m : α → α} {g : α → Option β} {k : β → β} {l : List α} {P : α → Prop}
    (h : ∀ x, P x → g (m x) = (g x).map k) (hl : ∀ x ∈ l, P x) : (l.map m).filterMap g = (l.filterMap g).map k := by
  rw [List.filterMap_map, List.map_filterMap]
  exact List.filterMap_congr fun x hx => h x (hl x hx)

theorem rc_attrs_ast {as : List Attr} (h : ∀ a ∈ as, a.Ok) :
    attrsAst (as.map (·.recode e σ)) = (attrsAst as).map (·.mapText (recode e σ)) :=
  map_list' (fun _ hx => rc_attr_ast he hσ hx) h

/-! ## Settings -/

/-- The keys of the attributes are plain. -/
def PlainKeys (bs : List Attribute) : Prop := ∀ b ∈ bs, PlainS b.key.to_string

omit he hσ in
theorem attrs_plainKeys {as : List Attr} (h : ∀ a ∈ as, a.Ok) : PlainKeys (attrsAst as) := by
  intro b hb
  obtain ⟨a, ha, rfl⟩ := List.mem_map.1 hb
  exact isSpacedVar_plain (h a ha).1

omit he in
theorem key_mapText {b : Attribute} (h : PlainS b.key.to_string) :
    (b.mapText (recode e σ)).key.to_string = b.key.to_string := by
  simp only [Attribute.mapText, Ident.mapText, recode_id hσ h]

omit he in
theorem has_mapText {bs : List Attribute} (h : PlainKeys bs) (k : Str) : has k (bs.map (·.mapText (recode e σ))) = has k bs := by
  unfold has
  rw [List.any_map]
  induction bs with
  | nil => rfl
  | cons b bs ih =>
    simp only [List.any_cons, Function.comp, key_mapText hσ (h b (by simp))]
    rw [← ih fun x hx => h x (by simp [hx])]

omit he in
theorem valuesOf_mapText {bs : List Attribute} (h : PlainKeys bs) (k : Str) :
    valuesOf k (bs.map (·.mapText (recode e σ))) = (valuesOf k bs).map (Option.map (·.mapText (recode e σ))) := by
  unfold valuesOf
  induction bs with
  | nil => rfl
  | cons b bs ih =>
    have := ih fun x hx => h x (by simp [hx])
    simp only [List.map_cons, List.filter_cons, key_mapText hσ (h b (by simp))]
    split
    · simp only [List.map_cons, this]; rfl
    · exact this

omit he in
theorem lastValue_mapText {bs : List Attribute} (h : PlainKeys bs) (k : Str) :
    lastValue k (bs.map (·.mapText (recode e σ))) = (lastValue k bs).map (·.mapText (recode e σ)) := by
  unfold lastValue
  rw [valuesOf_mapText hσ h, List.getLast?_map]
  cases (valuesOf k bs).getLast? <;> rfl

omit he in
theorem lastStr_mapText {bs : List Attribute} (h : PlainKeys bs) (k : Str) :
    (lastValue k (bs.map (·.mapText (recode e σ)))).map (·.value.toStr) = ((lastValue k bs).map (·.value.toStr)).map (recode e σ) := by
  rw [lastValue_mapText hσ h]
  cases lastValue k bs with
  | none => rfl
  | some l => simp only [Option.map_some, Literal.mapText, toStr_mapText hσ]

omit he in
theorem nullableOf_mapText {bs : List Attribute} (h : PlainKeys bs) :
    (bs.map (·.mapText (recode e σ))).filterMap nullableOf = bs.filterMap nullableOf := by
  rw [List.filterMap_map]
  refine List.filterMap_congr fun b hb => ?_
  simp only [Function.comp, nullableOf, key_mapText hσ (h b hb)]

omit he hσ in
theorem lastValue_attr {as : List Attr} {k : Str} {l : Literal} (h : lastValue k (attrsAst as) = some l) :
    ∃ a ∈ as, a.key = k ∧ ∃ v, a.value = some v ∧ l = v.ast := by
  unfold lastValue at h
  cases hg : (valuesOf k (attrsAst as)).getLast? with
  | none => rw [hg] at h; simp at h
  | some o =>
    rw [hg] at h
    simp at h
    subst h
    have hm := List.mem_of_getLast? hg
    obtain ⟨b, hb, hbv⟩ := List.mem_map.1 hm
    obtain ⟨hb1, hb2⟩ := List.mem_filter.1 hb
    obtain ⟨a, ha, rfl⟩ := List.mem_map.1 hb1
    refine ⟨a, ha, by simpa [Source.Attr.ast, keyAst] using of_decide_eq_true hb2, ?_⟩
    cases hv : a.value with
    | none => simp [Source.Attr.ast, hv] at hbv
    | some v => exact ⟨v, rfl, by simpa [Source.Attr.ast, hv] using hbv.symm⟩

theorem rc_actionOf {as : List Attr} (h : ∀ a ∈ as, a.Ok) (k : Str) :
    actionOf k (attrsAst (as.map (·.recode e σ))) = actionOf k (attrsAst as) := by
  rw [rc_attrs_ast he hσ h]
  unfold actionOf
  rw [lastValue_mapText hσ (attrs_plainKeys h)]
  cases hl : lastValue k (attrsAst as) with
  | none => rfl
  | some l =>
    obtain ⟨a, ha, -, v, hv, rfl⟩ := lastValue_attr hl
    have hok := (h a ha).2 v hv
    cases v with
    | word w =>
      simp only [Option.map_some, Source.AVal.ast, Source.AVal.value, Literal.mapText, Value.mapText,
        recode_id hσ (isSpacedVar_plain hok.1)]
    | lit l => cases l <;> rfl
    | dq x => rfl

theorem rc_refAttrs_ok {as : List Attr} (h : RefAttrsOk as) : RefAttrsOk (as.map (·.recode e σ)) := by
  refine ⟨rc_attrs_ok he hσ h.1, ?_⟩
  intro a ha hk w hw
  obtain ⟨b, hb, rfl⟩ := List.mem_map.1 ha
  obtain ⟨v, hv, hv'⟩ := Option.map_eq_some_iff.1 hw
  cases v with
  | word s =>
    simp only [Source.AVal.recode, Source.AVal.word.injEq] at hv'
    subst hv'
    exact h.2 b hb hk s hv
  | lit l => simp [Source.AVal.recode] at hv'
  | dq x => simp [Source.AVal.recode] at hv'

theorem rc_refSettings_ast {as : List Attr} (h : ∀ a ∈ as, a.Ok) :
    refSettingsAst (as.map (·.recode e σ)) = (refSettingsAst as).mapText (recode e σ) := by
  simp only [refSettingsAst, RefSettings.mapText, rc_actionOf he hσ h]
  rw [rc_attrs_ast he hσ h]

omit he hσ in
theorem indexType_plain {w : Str} {t : IndexesType} (h : (w, t) ∈ indexTypes) : PlainS w := by
  simp only [indexTypes, List.mem_cons, Prod.mk.injEq, List.not_mem_nil, or_false] at h
  rcases h with ⟨rfl, -⟩ | ⟨rfl, -⟩ | ⟨rfl, -⟩ | ⟨rfl, -⟩ <;> decide

theorem rc_indexAttrs_ok {as : List Attr} (h : IndexAttrsOk as) : IndexAttrsOk (as.map (·.recode e σ)) := by
  refine ⟨rc_attrs_ok he hσ h.1, ?_⟩
  intro a ha hk w hw
  obtain ⟨b, hb, rfl⟩ := List.mem_map.1 ha
  obtain ⟨v, hv, rfl⟩ := Option.map_eq_some_iff.1 hw
  obtain ⟨t, ht⟩ := h.2 b hb hk v hv
  refine ⟨t, ?_⟩
  rw [rc_aval_value he hσ ((h.1 b hb).2 v hv), toStr_mapText hσ, recode_id hσ (indexType_plain ht)]
  exact ht

theorem rc_indexSettings_ast {as : List Attr} (h : IndexAttrsOk as) :
    indexSettingsAst (as.map (·.recode e σ)) = (indexSettingsAst as).mapText (recode e σ) := by
  have hk := attrs_plainKeys h.1
  simp only [indexSettingsAst, IndexesSettings.mapText, rc_attrs_ast he hσ h.1, has_mapText hσ hk, lastStr_mapText hσ hk]
  congr 1
  rw [lastValue_mapText hσ hk]
  cases hl : lastValue k!"type" (attrsAst as) with
  | none => rfl
  | some l =>
    obtain ⟨a, ha, hka, v, hv, rfl⟩ := lastValue_attr hl
    obtain ⟨t, ht⟩ := h.2 a ha hka v hv
    simp only [Option.map_some, Option.bind_some, Literal.mapText, toStr_mapText hσ, Source.AVal.ast,
      recode_id hσ (indexType_plain ht)]

theorem rc_enumSettings_ast {as : List Attr} (h : ∀ a ∈ as, a.Ok) :
    enumSettingsAst (as.map (·.recode e σ)) = (enumSettingsAst as).mapText (recode e σ) := by
  have hk := attrs_plainKeys h
  simp only [enumSettingsAst, EnumValueSettings.mapText, rc_attrs_ast he hσ h, lastStr_mapText hσ hk]

/-! ## Notes, projects, references, indexes, enums -/

theorem rc_note_ok {n : Note} (h : n.Ok) : (n.recode e σ).Ok := ⟨h.1, rc_str_ok he hσ h.2⟩

theorem rc_note_ast {n : Note} (h : n.Ok) : (n.recode e σ).ast = n.ast.mapText (recode e σ) := by
  simp only [Source.Note.ast, Source.Note.recode, NoteBlock.mapText, rc_str_ast he hσ h.2]

theorem rc_projItem_ok {i : ProjItem} (h : i.Ok) : (i.recode e σ).Ok := by
  cases i with
  | note n => exact rc_note_ok he hσ h
  | prop k v =>
    refine ⟨h.1, rc_aval_ok he hσ h.2.1, ?_, ?_⟩
    · intro x hx
      cases v with
      | dq y => exact h.2.2.1 y rfl
      | lit l => simp [Source.AVal.recode] at hx
      | word s => simp [Source.AVal.recode] at hx
    · rintro ⟨hk, l, hl⟩
      cases v with
      | dq y => simp [Source.AVal.recode] at hl
      | word s => simp [Source.AVal.recode] at hl
      | lit x =>
        cases x with
        | str l => exact h.2.2.2 ⟨hk, l, rfl⟩
        | _ => simp [Source.AVal.recode, Source.Lit.recode] at hl

theorem rc_prop? {i : ProjItem} (h : i.Ok) : (i.recode e σ).prop? = i.prop?.map (·.mapText (recode e σ)) := by
  cases i with
  | note n => rfl
  | prop k v =>
    simp only [Source.ProjItem.recode, Source.ProjItem.prop?, Option.map_some, Property.mapText, ← rc_key he hσ h.1,
      rc_aval_ast he hσ h.2.1]

theorem rc_pnote? {i : ProjItem} (h : i.Ok) : (i.recode e σ).note? = i.note?.map (·.mapText (recode e σ)) := by
  cases i with
  | note n => simp only [Source.ProjItem.recode, Source.ProjItem.note?, Option.map_some, rc_note_ast he hσ h]
  | prop k v => rfl

theorem rc_dbTypeOf {p : Property} (h : PlainS p.key.to_string) :
    dbTypeOf (p.mapText (recode e σ)) = (dbTypeOf p).map (·.mapText (recode e σ)) := by
  have hk : (p.mapText (recode e σ)).key.to_string = p.key.to_string := recode_id hσ h
  unfold dbTypeOf
  rw [hk]
  cases hv : p.value.value with
  | string s =>
    simp only [Property.mapText, Literal.mapText, hv, Value.mapText]
    split
    · have := recode_eq_plain he hσ (q := k!"PostgreSQL") (s := s) (by decide)
      by_cases hs : s = k!"PostgreSQL"
      · rw [if_pos (this.2 hs), if_pos hs]; rfl
      · rw [if_neg fun h => hs (this.1 h), if_neg hs]; rfl
    · rfl
  | _ => simp only [Property.mapText, Literal.mapText, hv, Value.mapText]; rfl

omit he hσ in
theorem props_plain {is : List ProjItem} (h : ∀ i ∈ is, i.Ok) : ∀ p ∈ is.filterMap (·.prop?), PlainS p.key.to_string := by
  intro p hp
  obtain ⟨i, hi, hp⟩ := List.mem_filterMap.1 hp
  cases i with
  | note n => simp [Source.ProjItem.prop?] at hp
  | prop k v =>
    simp only [Source.ProjItem.prop?, Option.some.injEq] at hp
    subst hp
    exact isSpacedVar_plain (h _ hi).1

theorem rc_project_ok {p : Project} (h : p.Ok) : (p.recode e σ).Ok :=
  ⟨h.1, rc_name_ok he hσ h.2.1, rc_mem h.2.2 (fun _ => rc_projItem_ok he hσ)⟩

theorem rc_project_ast {p : Project} (h : p.Ok) : (p.recode e σ).ast = p.ast.mapText (recode e σ) := by
  have h1 : (p.items.map (·.recode e σ)).filterMap (·.prop?) = (p.items.filterMap (·.prop?)).map (·.mapText (recode e σ)) :=
    filterMap_list' (fun _ hx => rc_prop? he hσ hx) h.2.2
  have h2 : (p.items.map (·.recode e σ)).filterMap (·.note?) = (p.items.filterMap (·.note?)).map (·.mapText (recode e σ)) :=
    filterMap_list' (fun _ hx => rc_pnote? he hσ hx) h.2.2
  have h3 : ((p.items.filterMap (·.prop?)).map (·.mapText (recode e σ))).filterMap dbTypeOf =
      ((p.items.filterMap (·.prop?)).filterMap dbTypeOf).map (·.mapText (recode e σ)) :=
    filterMap_list' (fun _ hx => rc_dbTypeOf he hσ hx) (props_plain h.2.2)
  simp only [Source.Project.ast, Source.Project.recode, ProjectBlock.mapText, h1, h2, h3, rc_name_ast he hσ h.2.1,
    List.getLast?_map]

theorem rc_comp_names (c : Comp) : (c.recode e σ).names = c.names.map (·.recode e σ) := by cases c <;> rfl

theorem rc_rend_ok {r : REnd} (h : r.Ok) : (r.recode e σ).Ok := by
  refine ⟨rc_opt h.1 (fun _ => rc_name_ok he hσ), rc_name_ok he hσ h.2.1, ?_⟩
  show ∀ n ∈ (r.cols.recode e σ).names, n.Ok
  rw [rc_comp_names he hσ]
  exact rc_mem h.2.2 (fun _ => rc_name_ok he hσ)

theorem rc_rend_ast {r : REnd} (h : r.Ok) : (r.recode e σ).ast = r.ast.mapText (recode e σ) := by
  simp only [Source.REnd.ast, Source.REnd.recode, RefIdent.mapText, rc_comp_names he hσ, rc_name_ast he hσ h.2.1]
  congr 1
  · exact map_opt' (fun _ hx => rc_name_ast he hσ hx) h.1
  · exact map_list' (fun _ hx => rc_name_ast he hσ hx) h.2.2

theorem rc_inline_ok {r : InlineRef} (h : r.Ok) : (r.recode e σ).Ok := ⟨h.1, rc_rend_ok he hσ h.2⟩

theorem rc_inline_ast {r : InlineRef} (h : r.Ok) : (r.recode e σ).ast = r.ast.mapText (recode e σ) := by
  simp only [Source.InlineRef.ast, Source.InlineRef.recode, RefInline.mapText, rc_rend_ast he hσ h.2]

theorem rc_ref_ok {r : Ref} (h : r.Ok) : (r.recode e σ).Ok :=
  ⟨h.1, rc_opt h.2.1 (fun _ => rc_name_ok he hσ), rc_rend_ok he hσ h.2.2.1, h.2.2.2.1, rc_rend_ok he hσ h.2.2.2.2.1,
    rc_opt h.2.2.2.2.2 (fun _ => rc_refAttrs_ok he hσ)⟩

theorem rc_ref_ast {r : Ref} (h : r.Ok) : (r.recode e σ).ast = r.ast.mapText (recode e σ) := by
  simp only [Source.Ref.ast, Source.Ref.recode, RefBlock.mapText, rc_rend_ast he hσ h.2.2.1, rc_rend_ast he hσ h.2.2.2.2.1]
  congr 1
  · exact map_opt' (fun _ hx => rc_name_ast he hσ hx) h.2.1
  · exact map_opt' (P := RefAttrsOk) (fun _ hx => rc_refSettings_ast he hσ hx.1) h.2.2.2.2.2

theorem rc_icol_ok {c : ICol} (h : c.Ok) : (c.recode e σ).Ok := by
  cases c with
  | name n => exact rc_name_ok he hσ h
  | expr x => exact quote_recode_ok he hσ (.inr (.inr (.inr rfl))) h

theorem rc_icol_ast {c : ICol} (h : c.Ok) : (c.recode e σ).ast = c.ast.mapText (recode e σ) := by
  cases c with
  | name n => simp only [Source.ICol.recode, Source.ICol.ast, IndexesColumnType.mapText, rc_name_ast he hσ h]
  | expr x =>
    simp only [Source.ICol.recode, Source.ICol.ast, IndexesColumnType.mapText, Literal.mapText, Value.mapText,
      recode_text hσ (.inr (.inr (.inr rfl))) (.inr h.2.2.1)]
    rfl

theorem rc_idef_cols (d : IDef) : (d.recode e σ).cols = d.cols.map (·.recode e σ) := by cases d <;> rfl
theorem rc_idef_settings (d : IDef) : (d.recode e σ).settings = d.settings.map (List.map (·.recode e σ)) := by cases d <;> rfl

theorem rc_idef_ok {d : IDef} (h : d.Ok) : (d.recode e σ).Ok := by
  unfold IDef.Ok
  rw [rc_idef_cols he hσ, rc_idef_settings he hσ]
  exact ⟨rc_mem h.1 (fun _ => rc_icol_ok he hσ), rc_opt h.2 (fun _ => rc_indexAttrs_ok he hσ)⟩

theorem rc_idef_ast {d : IDef} (h : d.Ok) : (d.recode e σ).ast = d.ast.mapText (recode e σ) := by
  simp only [Source.IDef.ast, rc_idef_cols he hσ, rc_idef_settings he hσ, IndexesDef.mapText]
  congr 1
  · exact map_list' (fun _ hx => rc_icol_ast he hσ hx) h.1
  · exact map_opt' (P := IndexAttrsOk) (fun _ hx => rc_indexSettings_ast he hσ hx) h.2

theorem rc_idxs_ok {i : Idxs} (h : i.Ok) : (i.recode e σ).Ok := ⟨h.1, rc_mem h.2 (fun _ => rc_idef_ok he hσ)⟩

theorem rc_idxs_ast {i : Idxs} (h : i.Ok) : (i.recode e σ).ast = i.ast.mapText (recode e σ) := by
  simp only [Source.Idxs.ast, Source.Idxs.recode, IndexesBlock.mapText]
  congr 1
  exact map_list' (fun _ hx => rc_idef_ast he hσ hx) h.2

theorem rc_eval_ok {v : EVal} (h : v.Ok) : (v.recode e σ).Ok :=
  ⟨rc_name_ok he hσ h.1, rc_opt (P := fun as : List Attr => ∀ a ∈ as, a.Ok) h.2 (fun _ => rc_attrs_ok he hσ)⟩

theorem rc_eval_ast {v : EVal} (h : v.Ok) : (v.recode e σ).ast = v.ast.mapText (recode e σ) := by
  simp only [Source.EVal.ast, Source.EVal.recode, EnumValue.mapText, rc_name_ast he hσ h.1]
  congr 1
  exact map_opt' (P := fun as : List Attr => ∀ a ∈ as, a.Ok) (fun _ hx => rc_enumSettings_ast he hσ hx) h.2

theorem rc_enum_ok {x : Source.Enum} (h : x.Ok) : (x.recode e σ).Ok :=
  ⟨h.1, rc_opt h.2.1 (fun _ => rc_name_ok he hσ), rc_name_ok he hσ h.2.2.1, rc_mem h.2.2.2 (fun _ => rc_eval_ok he hσ)⟩

theorem rc_enum_ast {x : Source.Enum} (h : x.Ok) : (x.recode e σ).ast = x.ast.mapText (recode e σ) := by
  simp only [Source.Enum.ast, Source.Enum.recode, EnumBlock.mapText, EnumIdent.mapText, rc_name_ast he hσ h.2.2.1]
  congr 1
  · congr 1
    exact map_opt' (fun _ hx => rc_name_ast he hσ hx) h.2.1
  · exact map_list' (fun _ hx => rc_eval_ast he hσ hx) h.2.2.2

/-! ## Types -/

theorem rc_litTail {l : Lit} (h : l.Tight) (X : Str) : recode e σ (l.text ++ X) = (l.recode e σ).text ++ recode e σ X := by
  rw [recode_append fun hl => absurd hl (lit_ends he hσ (lit_num' he hσ h)).1, rc_lit_text' he hσ h]

theorem rc_litTails : ∀ {ls : List Lit}, (∀ l ∈ ls, l.Tight) → ∀ X : Str,
    recode e σ (ls.flatMap (fun v => ',' :: v.text) ++ X) =
      (ls.map (·.recode e σ)).flatMap (fun v => ',' :: v.text) ++ recode e σ X
  | [], _, X => rfl
  | l :: ls, h, X => by
    simp only [List.flatMap_cons, List.cons_append, List.append_assoc, List.map_cons]
    rw [recode_plain hσ (by decide), rc_litTail he hσ (h l (by simp)), rc_litTails (fun x hx => h x (by simp [hx]))]

theorem rc_args {a : Option (List Lit)} (h : ∀ l ∈ a.getD [], l.Tight) (X : Str) :
    recode e σ (argsText a ++ X) = argsText (a.map (List.map (·.recode e σ))) ++ recode e σ X := by
  cases a with
  | none => rfl
  | some ls =>
    cases ls with
    | nil => exact recode_plain_append hσ X (by decide)
    | cons l ls =>
      simp only [argsText, Option.map_some, List.map_cons, List.append_assoc]
      rw [recode_plain_append hσ _ (by decide), rc_litTail he hσ (h l (by simp)),
        rc_litTails he hσ (fun x hx => h x (by simp [hx])), recode_plain_append hσ _ (by decide)]

omit he hσ in
theorem arrays_plain {r : List (Option Str)} (h : ∀ x ∈ r, ∀ ds, x = some ds → IsDigits ds ∧ digitsNat ds < 2 ^ 32) :
    PlainS (r.flatMap arrayText) := by
  intro c hc
  obtain ⟨x, hx, hc⟩ := List.mem_flatMap.1 hc
  unfold arrayText at hc
  rcases List.mem_cons.1 hc with rfl | hc
  · decide
  · rcases List.mem_append.1 hc with hc | hc
    · cases x with
      | none => simp at hc
      | some ds => exact digit_plain ((h _ hx ds rfl).1.2 c hc)
    · rw [List.mem_singleton.1 hc]; decide

theorem rc_body_name (b : TBody) : (b.recode e σ).name = b.name := by cases b <;> rfl
theorem rc_body_args (b : TBody) : (b.recode e σ).args = b.args.map (List.map (·.recode e σ)) := by cases b <;> rfl
theorem rc_body_arrays (b : TBody) : (b.recode e σ).arrays = b.arrays := by cases b <;> rfl

theorem rc_body_ok {b : TBody} (h : b.Ok) : (b.recode e σ).Ok := by
  refine ⟨?_, ?_, ?_⟩
  · have := h.1
    cases b <;> exact this
  · rw [rc_body_args he hσ]
    cases hb : b.args with
    | none => simp
    | some ls =>
      have := h.2.1
      rw [hb] at this
      exact rc_mem this (fun _ => rc_lit_tight he hσ)
  · rw [rc_body_arrays he hσ]; exact h.2.2

theorem rc_body_text {b : TBody} (h : b.Ok) : (b.recode e σ).text = recode e σ b.text := by
  cases b with
  | plain n a r =>
    have h3 : PlainS (r.flatMap arrayText) := arrays_plain h.2.2
    simp only [Source.TBody.recode, Source.TBody.text]
    rw [recode_plain_append hσ _ (isVar_plain h.1), rc_args (a := a) he hσ h.2.1, recode_id hσ h3]
  | quoted n a r r' =>
    have h3 : PlainS (r.flatMap arrayText) := arrays_plain fun x hx => h.2.2 x (by simp [Source.TBody.arrays, hx])
    have h4 : PlainS (r'.flatMap arrayText) := arrays_plain fun x hx => h.2.2 x (by simp [Source.TBody.arrays, hx])
    simp only [Source.TBody.recode, Source.TBody.text]
    rw [recode_plain_append hσ _ (by decide), recode_plain_append hσ _ (isSpacedVar_plain h.1), rc_args (a := a) he hσ h.2.1,
      recode_plain_append hσ _ h3, recode_plain_append hσ _ (by decide), recode_id hσ h4]

theorem recode_dropWhile {q : Char} (hq : PlainC q) : ∀ s : Str,
    (recode e σ s).dropWhile (· ≠ q) = recode e σ (s.dropWhile (· ≠ q))
  | [] => rfl
  | c :: s => by
    have ih := recode_dropWhile hq s
    rcases recode_cons he hσ c s with ⟨hc, h'⟩ | ⟨hc, g, h', hg, -⟩
    · by_cases h : c = q
      · subst h; rw [h']; simp [h']
      · rw [h']; simp only [List.dropWhile_cons, ne_eq, h, not_false_eq_true, decide_true, if_true]; exact ih
    · have h : c ≠ q := by rintro rfl; exact hc hq
      rw [h']
      simp only [List.dropWhile_cons, ne_eq, h, not_false_eq_true, decide_true, if_true]
      rw [List.dropWhile_append_of_pos, ← ih]
      intro x hx
      have : x ≠ q := by rintro rfl; exact hg x hx hq
      simpa using this

theorem rc_noDot {b : TBody} (hb : b.Ok) (h : b.NoDot) : (b.recode e σ).NoDot := by
  cases b with
  | plain n a r => trivial
  | quoted n a r r' =>
    have h3 : PlainS (r.flatMap arrayText) := arrays_plain fun x hx => hb.2.2 x (by simp [Source.TBody.arrays, hx])
    simp only [Source.TBody.recode, TBody.NoDot] at h ⊢
    have e1 : n ++ (argsText (a.map (List.map (·.recode e σ))) ++ (r.flatMap arrayText ++ k!"\"")) =
        recode e σ (n ++ (argsText a ++ (r.flatMap arrayText ++ k!"\""))) := by
      rw [recode_plain_append hσ _ (isSpacedVar_plain hb.1), rc_args (a := a) he hσ hb.2.1, recode_plain_append hσ _ h3,
        recode_id hσ (by decide)]
    rw [e1, recode_dropWhile he hσ (by decide)]
    generalize n ++ (argsText a ++ (r.flatMap arrayText ++ k!"\"")) = X at h
    intro hd
    cases hx : X.dropWhile (· ≠ '"') with
    | nil => rw [hx] at hd; simp [recode] at hd
    | cons c Y =>
      have hc : c = '"' := by
        have := List.head?_dropWhile_not (fun x => decide (x ≠ '"')) X
        rw [hx] at this
        simpa using this
      subst hc
      rw [hx, recode_plain hσ (by decide)] at hd
      rw [hx] at h
      simp only [List.drop_succ_cons, List.drop_zero] at hd h
      cases hr : recode e σ Y with
      | nil => rw [hr] at hd; simp at hd
      | cons z Z =>
        rw [hr] at hd
        simp at hd
        subst hd
        obtain ⟨s', rfl, -⟩ := recode_head he hσ hr (by decide)
        simp at h

theorem rc_ty_ok {t : Ty} (h : t.Ok) : (t.recode e σ).Ok := by
  refine ⟨rc_opt h.1 (fun _ => rc_name_tight he hσ), rc_body_ok he hσ h.2.1, fun hs => ?_⟩
  refine rc_noDot he hσ h.2.1 (h.2.2 ?_)
  cases hx : t.schema with
  | none => rfl
  | some s => simp [Source.Ty.recode, hx] at hs

theorem rc_name_text' {n : Name} (h : n.Tight) : (n.recode e σ).text = recode e σ n.text := by
  cases n with
  | word s => exact (recode_id hσ (isVar_plain h)).symm
  | quoted x => exact recode_text hσ (.inl rfl) (.inl h.1)

theorem rc_name_value' {n : Name} (h : n.Tight) : (n.recode e σ).value = recode e σ n.value := by
  cases n with
  | word s => exact (recode_id hσ (isVar_plain h)).symm
  | quoted x => rfl

theorem rc_ty_text {t : Ty} (h : t.Ok) : (t.recode e σ).text = recode e σ t.text := by
  unfold Source.Ty.text Source.Ty.recode
  cases hs : t.schema with
  | none => exact rc_body_text he hσ h.2.1
  | some s =>
    simp only [Option.map_some]
    rw [recode_append_plain (by decide), recode_plain hσ (by decide), rc_name_text' he hσ (h.1 s hs), rc_body_text he hσ h.2.1]

theorem body_name_plain {b : TBody} (h : b.Ok) : PlainS b.name := by
  have := h.1
  cases b with
  | plain n a r => exact isVar_plain this
  | quoted n a r r' => exact isSpacedVar_plain this

theorem rc_ty_ast {t : Ty} (h : t.Ok) : (t.recode e σ).ast = t.ast.mapText (recode e σ) := by
  have hn := body_name_plain he hσ h.2.1
  simp only [Source.Ty.ast, ColumnType.mapText, rc_ty_text he hσ h]
  congr 1
  · simp only [Source.Ty.recode, rc_body_name he hσ, ColumnTypeName.mapText]
    congr 1
    cases hs : t.schema with
    | none => exact (recode_id hσ hn).symm
    | some s =>
      simp only [Option.map_some]
      rw [recode_append_plain (by decide), recode_plain hσ (by decide), rc_name_value' he hσ (h.1 s hs), recode_id hσ hn]
  · simp only [Source.Ty.recode, rc_body_args he hσ]
    have := h.2.1.2.1
    cases ha : t.body.args with
    | none => rfl
    | some ls =>
      rw [ha] at this
      exact map_list' (fun _ hx => rc_lit_value he hσ (lit_num' he hσ hx)) this
  · simp only [Source.Ty.recode, rc_body_arrays he hσ]

/-! ## Tables, groups, documents -/

theorem rc_colSet_ok {i : ColSet} (h : i.Ok) : (i.recode e σ).Ok := by
  cases i with
  | attr a => exact rc_attr_ok he hσ h
  | ref r => exact rc_inline_ok he hσ h

theorem rc_attr? {i : ColSet} (h : i.Ok) : (i.recode e σ).attr? = i.attr?.map (·.mapText (recode e σ)) := by
  cases i with
  | attr a => simp only [Source.ColSet.recode, Source.ColSet.attr?, Option.map_some, rc_attr_ast he hσ h]
  | ref r => rfl

theorem rc_ref? {i : ColSet} (h : i.Ok) : (i.recode e σ).ref? = i.ref?.map (·.mapText (recode e σ)) := by
  cases i with
  | attr a => rfl
  | ref r => simp only [Source.ColSet.recode, Source.ColSet.ref?, Option.map_some, rc_inline_ast he hσ h]

theorem rc_colSettings_ast {is : List ColSet} (h : ∀ i ∈ is, i.Ok) :
    colSettingsAst (is.map (·.recode e σ)) = (colSettingsAst is).mapText (recode e σ) := by
  have h1 : (is.map (·.recode e σ)).filterMap (·.attr?) = (is.filterMap (·.attr?)).map (·.mapText (recode e σ)) :=
    filterMap_list' (fun _ hx => rc_attr? he hσ hx) h
  have h2 : (is.map (·.recode e σ)).filterMap (·.ref?) = (is.filterMap (·.ref?)).map (·.mapText (recode e σ)) :=
    filterMap_list' (fun _ hx => rc_ref? he hσ hx) h
  have hk : PlainKeys (is.filterMap (·.attr?)) := by
    intro b hb
    obtain ⟨i, hi, hb⟩ := List.mem_filterMap.1 hb
    cases i with
    | ref r => simp [Source.ColSet.attr?] at hb
    | attr a =>
      simp only [Source.ColSet.attr?, Option.some.injEq] at hb
      subst hb
      exact isSpacedVar_plain (h _ hi).1
  simp only [colSettingsAst, ColumnSettings.mapText, h1, h2, has_mapText hσ hk, nullableOf_mapText hσ hk, lastStr_mapText hσ hk]
  congr 1
  rw [lastValue_mapText hσ hk]
  cases lastValue k!"default" (is.filterMap (·.attr?)) <;> rfl

theorem rc_col_ok {c : Col} (h : c.Ok) : (c.recode e σ).Ok :=
  ⟨rc_name_ok he hσ h.1, rc_ty_ok he hσ h.2.1,
    rc_opt (P := fun is : List ColSet => ∀ i ∈ is, i.Ok) h.2.2 (fun _ hx => rc_mem hx (fun _ => rc_colSet_ok he hσ))⟩

theorem rc_col_ast {c : Col} (h : c.Ok) : (c.recode e σ).ast = c.ast.mapText (recode e σ) := by
  simp only [Source.Col.ast, Source.Col.recode, TableColumn.mapText, rc_name_ast he hσ h.1, rc_ty_ast he hσ h.2.1]
  congr 1
  exact map_opt' (P := fun is : List ColSet => ∀ i ∈ is, i.Ok) (fun _ hx => rc_colSettings_ast he hσ hx) h.2.2

theorem rc_titem_ok {i : TItem} (h : i.Ok) : (i.recode e σ).Ok := by
  cases i with
  | col c => exact rc_col_ok he hσ h
  | note n => exact rc_note_ok he hσ h
  | indexes x => exact rc_idxs_ok he hσ h

theorem rc_col? {i : TItem} (h : i.Ok) : (i.recode e σ).col? = i.col?.map (·.mapText (recode e σ)) := by
  cases i with
  | col c => simp only [Source.TItem.recode, Source.TItem.col?, Option.map_some, rc_col_ast he hσ h]
  | _ => rfl
theorem rc_tnote? {i : TItem} (h : i.Ok) : (i.recode e σ).note? = i.note?.map (·.mapText (recode e σ)) := by
  cases i with
  | note c => simp only [Source.TItem.recode, Source.TItem.note?, Option.map_some, rc_note_ast he hσ h]
  | _ => rfl
theorem rc_indexes? {i : TItem} (h : i.Ok) : (i.recode e σ).indexes? = i.indexes?.map (·.mapText (recode e σ)) := by
  cases i with
  | indexes c => simp only [Source.TItem.recode, Source.TItem.indexes?, Option.map_some, rc_idxs_ast he hσ h]
  | _ => rfl

theorem rc_table_ok {t : Table} (h : t.Ok) : (t.recode e σ).Ok :=
  ⟨h.1, rc_opt h.2.1 (fun _ => rc_name_ok he hσ), rc_name_ok he hσ h.2.2.1,
    rc_opt (P := fun a : Alias => Keyword k!"as " a.kw ∧ a.name.Ok) h.2.2.2.1 (fun _ hx => ⟨hx.1, rc_name_ok he hσ hx.2⟩),
    rc_opt (P := fun as : List Attr => ∀ a ∈ as, a.Ok) h.2.2.2.2.1 (fun _ => rc_attrs_ok he hσ),
    rc_mem h.2.2.2.2.2 (fun _ => rc_titem_ok he hσ)⟩

theorem rc_table_ast {t : Table} (h : t.Ok) : (t.recode e σ).ast = t.ast.mapText (recode e σ) := by
  have h1 : (t.items.map (·.recode e σ)).filterMap (·.col?) = (t.items.filterMap (·.col?)).map (·.mapText (recode e σ)) :=
    filterMap_list' (fun _ hx => rc_col? he hσ hx) h.2.2.2.2.2
  have h2 : (t.items.map (·.recode e σ)).filterMap (·.note?) = (t.items.filterMap (·.note?)).map (·.mapText (recode e σ)) :=
    filterMap_list' (fun _ hx => rc_tnote? he hσ hx) h.2.2.2.2.2
  have h3 : (t.items.map (·.recode e σ)).filterMap (·.indexes?) = (t.items.filterMap (·.indexes?)).map (·.mapText (recode e σ)) :=
    filterMap_list' (fun _ hx => rc_indexes? he hσ hx) h.2.2.2.2.2
  simp only [Source.Table.ast, Source.Table.recode, TableBlock.mapText, TableIdent.mapText, h1, h2, h3,
    rc_name_ast he hσ h.2.2.1, List.getLast?_map]
  congr 1
  · congr 1
    · exact map_opt' (fun _ hx => rc_name_ast he hσ hx) h.2.1
    · exact map_opt' (P := fun a : Alias => Keyword k!"as " a.kw ∧ a.name.Ok) (fun _ hx => rc_name_ast he hσ hx.2) h.2.2.2.1
  · exact map_opt' (P := fun as : List Attr => ∀ a ∈ as, a.Ok)
      (fun _ hx => by simp only [TableSettings.mapText, rc_attrs_ast he hσ hx]) h.2.2.2.2.1

theorem rc_gitem_ok {i : GItem} (h : i.Ok) : (i.recode e σ).Ok := by
  cases i with
  | note n => exact rc_note_ok he hσ h
  | item s n => exact ⟨rc_opt h.1 (fun _ => rc_name_ok he hσ), rc_name_ok he hσ h.2⟩

theorem rc_gnote? {i : GItem} (h : i.Ok) : (i.recode e σ).note? = i.note?.map (·.mapText (recode e σ)) := by
  cases i with
  | note c => simp only [Source.GItem.recode, Source.GItem.note?, Option.map_some, rc_note_ast he hσ h]
  | item s n => rfl
theorem rc_item? {i : GItem} (h : i.Ok) : (i.recode e σ).item? = i.item?.map (·.mapText (recode e σ)) := by
  cases i with
  | note c => rfl
  | item s n =>
    simp only [Source.GItem.recode, Source.GItem.item?, Option.map_some, TableGroupItem.mapText, rc_name_ast he hσ h.2]
    congr 2
    exact map_opt' (fun _ hx => rc_name_ast he hσ hx) h.1

theorem rc_group_ok {g : Group} (h : g.Ok) : (g.recode e σ).Ok :=
  ⟨h.1, rc_name_ok he hσ h.2.1, rc_opt (P := fun as : List Attr => ∀ a ∈ as, a.Ok) h.2.2.1 (fun _ => rc_attrs_ok he hσ),
    rc_mem h.2.2.2 (fun _ => rc_gitem_ok he hσ)⟩

theorem rc_group_ast {g : Group} (h : g.Ok) : (g.recode e σ).ast = g.ast.mapText (recode e σ) := by
  have h1 : (g.items.map (·.recode e σ)).filterMap (·.item?) = (g.items.filterMap (·.item?)).map (·.mapText (recode e σ)) :=
    filterMap_list' (fun _ hx => rc_item? he hσ hx) h.2.2.2
  have h2 : (g.items.map (·.recode e σ)).filterMap (·.note?) = (g.items.filterMap (·.note?)).map (·.mapText (recode e σ)) :=
    filterMap_list' (fun _ hx => rc_gnote? he hσ hx) h.2.2.2
  simp only [Source.Group.ast, Source.Group.recode, TableGroupBlock.mapText, h1, h2, rc_name_ast he hσ h.2.1, List.getLast?_map]
  congr 1
  exact map_opt' (P := fun as : List Attr => ∀ a ∈ as, a.Ok)
    (fun _ hx => by simp only [TableGroupSettings.mapText, rc_attrs_ast he hσ hx]) h.2.2.1

theorem rc_block_ok {b : Block} (h : b.Ok) : (b.recode e σ).Ok := by
  cases b with
  | project x => exact rc_project_ok he hσ h
  | table x => exact rc_table_ok he hσ h
  | group x => exact rc_group_ok he hσ h
  | note x => exact rc_note_ok he hσ h
  | ref x => exact rc_ref_ok he hσ h
  | enum x => exact rc_enum_ok he hσ h

theorem rc_block_ast {b : Block} (h : b.Ok) : (b.recode e σ).ast = b.ast.mapText (recode e σ) := by
  cases b with
  | project x => exact congrArg _ (rc_project_ast he hσ h)
  | table x => exact congrArg _ (rc_table_ast he hσ h)
  | group x => exact congrArg _ (rc_group_ast he hσ h)
  | note x => exact congrArg _ (rc_note_ast he hσ h)
  | ref x => exact congrArg _ (rc_ref_ast he hσ h)
  | enum x => exact congrArg _ (rc_enum_ast he hσ h)

theorem rc_doc_ok {d : Doc} (h : d.Ok) : (Doc.recode e σ d).Ok := rc_mem h (fun _ => rc_block_ok he hσ)

theorem rc_doc_ast {d : Doc} (h : d.Ok) : (Doc.recode e σ d).ast = d.ast.map (·.mapText (recode e σ)) :=
  map_list' (fun _ hx => rc_block_ast he hσ hx) h

/-! ## Tokens -/

omit he in
theorem tm_sym {t : Tok} (h : PlainS t.txt) (hne : t.txt ≠ []) (hn : t.next = .any) : TokMap e σ t t :=
  tokMap_plain hσ h hne fun _ _ => by rw [hn]; trivial

theorem tm_key {k : Str} (h : IsSpacedVar k) : TokMap e σ (keyTok k) (keyTok k) :=
  tokMap_plain hσ (isSpacedVar_plain h) (isSpacedVar_ne h) fun _ => recode_next_spaced he hσ

theorem tm_name {n : Name} (h : n.Ok) : TokMap e σ n.tok (n.recode e σ).tok := by
  cases n with
  | word s => exact tokMap_plain hσ (isVar_plain h) (isVar_ne h) fun _ => recode_next_word he hσ
  | quoted x => exact tokMap_quote he hσ (.inl rfl) h rfl rfl rfl rfl

theorem tm_str {l : StrLit} (h : l.Ok) : TokMap e σ l.tok (l.recode e σ).tok := by
  cases l with
  | single x => exact tokMap_quote he hσ (.inr (.inl rfl)) h rfl rfl rfl rfl
  | triple x => exact tokMap_quote he hσ (.inr (.inr (.inl rfl))) h rfl rfl rfl rfl

theorem hex_next {h : Str} (hx : h.length = 3 ∨ h.length = 6) {r : Str} (hr : (Lit.hex h).next r) : (Lit.hex h).next (recode e σ r) := by
  match h, hx with
  | [a, b, c], _ =>
    intro ⟨x, y, z, t, ht, h1, h2, h3⟩
    obtain ⟨s1, rfl, g1⟩ := recode_head he hσ ht (hex_plain h1)
    obtain ⟨s2, rfl, g2⟩ := recode_head he hσ g1 (hex_plain h2)
    obtain ⟨s3, rfl, g3⟩ := recode_head he hσ g2 (hex_plain h3)
    exact hr ⟨x, y, z, s3, rfl, h1, h2, h3⟩
  | [_, _, _, _, _, _], _ => trivial

theorem tm_lit {l : Lit} (h : l.Ok) {t t' : Tok} (h1 : t = { txt := l.text, next := l.next })
    (h2 : t' = { txt := (l.recode e σ).text, next := (l.recode e σ).next }) : TokMap e σ t t' := by
  subst h1 h2
  rcases num_plain (σ := σ) he hσ (lit_num he hσ h) with ⟨x, rfl⟩ | ⟨x, rfl⟩ | ⟨g1, g2, g3, g4⟩
  · exact tm_str he hσ h
  · exact tokMap_quote he hσ (.inr (.inr (.inr rfl))) h rfl rfl rfl rfl
  · rw [g1]
    refine tokMap_plain hσ g2 g3 fun r => ?_
    cases l with
    | hex x => exact fun hr => hex_next he hσ h.2 hr
    | str x => exact absurd rfl (g4.1 x)
    | expr x => exact absurd rfl (g4.2 x)
    | _ => exact fun _ => trivial

theorem tm_aval {v : AVal} (h : v.Ok) : TokMap e σ v.tok (v.recode e σ).tok := by
  cases v with
  | lit l => exact tm_lit he hσ h rfl rfl
  | word s => exact tokMap_plain hσ (isSpacedVar_plain h.1) (isSpacedVar_ne h.1) fun _ => recode_next_spaced he hσ
  | dq x => exact tokMap_quote he hσ (.inl rfl) h rfl rfl rfl rfl

end

end Dbml

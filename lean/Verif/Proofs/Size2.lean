import Verif.Proofs.Size1
import Verif.Proofs.FloatShow3
import Verif.Proofs.Walkers3
import Verif.Props.Decimals
import Verif.Spec.Source

/-!
# The AST of a document is not larger than eight times its tokens
-/

namespace Dbml.Size

open Source Syntax Spec

/-- The number of characters of the tokens. -/
def tl (ts : List Tok) : Nat := list (fun t => t.txt.length) ts

@[simp] theorem tl_nil : tl [] = 0 := rfl
@[simp] theorem tl_cons (t : Tok) (ts : List Tok) : tl (t :: ts) = t.txt.length + tl ts := by simp [tl, list]
@[simp] theorem tl_append (a b : List Tok) : tl (a ++ b) = tl a + tl b := by simp [tl, list]
theorem tl_flatMap {α : Type} (f : α → List Tok) (l : List α) : tl (l.flatMap f) = list (fun a => tl (f a)) l := by
  induction l with
  | nil => rfl
  | cons a l ih => simp [ih, list]

theorem list_nil {α : Type} (f : α → Nat) : list f [] = 0 := rfl
theorem list_cons {α : Type} (f : α → Nat) (a : α) (l : List α) : list f (a :: l) = f a + list f l := by simp [list]

theorem list_le {α : Type} {f g : α → Nat} {l : List α} (h : ∀ a ∈ l, f a ≤ g a) : list f l ≤ list g l := by
  induction l with
  | nil => exact Nat.le_refl _
  | cons a l ih =>
    rw [list_cons, list_cons]
    have := h a (by simp)
    have := ih fun b hb => h b (by simp [hb])
    omega

theorem list_mul {α : Type} (k : Nat) (f : α → Nat) (l : List α) : list (fun a => k * f a) l = k * list f l := by
  induction l with
  | nil => rfl
  | cons a l ih => rw [list_cons, list_cons, ih, Nat.mul_add]

theorem list_le_mul {α : Type} {k : Nat} {f g : α → Nat} {l : List α} (h : ∀ a ∈ l, f a ≤ k * g a) : list f l ≤ k * list g l := by
  rw [← list_mul]; exact list_le h

theorem list_add {α : Type} (f g : α → Nat) (l : List α) : list f l + list g l = list (fun a => f a + g a) l := by
  induction l with
  | nil => rfl
  | cons a l ih => simp only [list_cons]; omega

theorem le_list {α : Type} {f : α → Nat} {l : List α} {a : α} (h : a ∈ l) : f a ≤ list f l := by
  induction l with
  | nil => cases h
  | cons b l ih =>
    rw [list_cons]
    rcases List.mem_cons.1 h with rfl | h
    · omega
    · have := ih h; omega

theorem list_filterMap {α β : Type} (f : β → Nat) (g : α → Option β) (l : List α) :
    list f (l.filterMap g) = list (fun a => opt f (g a)) l := by
  induction l with
  | nil => rfl
  | cons a l ih =>
    rw [list_cons, List.filterMap_cons]
    cases g a with
    | none => exact ih.trans (Nat.zero_add _).symm
    | some b => show list f (b :: _) = _; rw [list_cons, ih]; rfl

theorem opt_last {α : Type} (f : α → Nat) (l : List α) : opt f l.getLast? ≤ list f l := by
  cases h : l.getLast? with
  | none => exact Nat.zero_le _
  | some a => exact le_list (List.mem_of_getLast? h)

theorem commaSep_len {α : Type} (f : α → List Tok) (l : List α) : list (fun a => tl (f a)) l ≤ tl (commaSep f l) := by
  cases l with
  | nil => exact Nat.le_refl _
  | cons a l =>
    simp only [commaSep, tl_append, list_cons, tl_flatMap, tl_cons]
    have : list (fun a => tl (f a)) l ≤ list (fun a => comma.txt.length + tl (f a)) l := list_le fun a _ => by omega
    omega

/-! ## Names and literals -/

theorem quote_len (q : Str) (x : Quote) : x.val.length + 2 * q.length ≤ (x.text q).length := by
  simp only [Quote.text, List.length_append]; omega

theorem name_pos {n : Name} (h : n.Ok ∨ n.Tight) : 1 ≤ n.text.length ∧ n.value.length ≤ n.text.length := by
  cases n with
  | word s =>
    have : IsVar s := h.elim id id
    obtain ⟨c, cs, rfl, -⟩ := this
    simp [Name.text, Name.value]
  | quoted x =>
    have := quote_len k!"\"" x
    simp only [Name.text, Name.value]
    simp only [List.length_cons, List.length_nil] at this
    omega

theorem name_size {n : Name} (h : n.Ok) : ident n.ast ≤ 5 * n.text.length := by
  have := name_pos (.inl h)
  simp only [ident, str, Name.ast]; omega

theorem spaced_pos {s : Str} (h : IsSpacedVar s) : 1 ≤ s.length := by
  obtain ⟨c, cs, rfl, -⟩ := h
  simp

theorem key_size {s : Str} : ident (keyAst s) = 3 + 2 * s.length := by
  simp only [ident, str, keyAst]; omega

theorem strLit_size (l : StrLit) : l.value.length + 2 ≤ l.text.length := by
  cases l with
  | single x => have := quote_len k!"'" x; simp only [List.length_cons, List.length_nil] at this; simp only [StrLit.text, StrLit.value]; omega
  | triple x => have := quote_len k!"'''" x; simp only [List.length_cons, List.length_nil] at this; simp only [StrLit.text, StrLit.value]; omega

theorem strLit_lit (l : StrLit) : literal l.ast ≤ 2 + 2 * l.text.length := by
  have := strLit_size l
  simp only [literal, StrLit.ast, str, value]; omega

theorem natDigits_len {ds : Str} (h : IsDigits ds) : (Nat.toDigits 10 (digitsNat ds)).length ≤ ds.length :=
  (Nat.length_toDigits_le_iff (by decide) (List.length_pos_of_ne_nil h.1)).2 (digitsNat_lt h.2)

theorem lit_len (l : Lit) (h : l.NumOk) : 1 ≤ l.text.length ∧ value l.value ≤ 2 + l.text.length ∧ l.value.toStr.length ≤ l.text.length + 2 := by
  cases l with
  | str l => have := strLit_size l; simp only [Lit.text, Lit.value, value, Size.str, Value.toStr]; omega
  | expr x =>
    have := quote_len k!"`" x
    simp only [List.length_cons, List.length_nil] at this
    simp only [Lit.text, Lit.value, value, Size.str, Value.toStr]; omega
  | tru => decide
  | fls => decide
  | null => decide
  | int ds =>
    have h1 : 1 ≤ ds.length := List.length_pos_of_ne_nil h.1.1
    refine ⟨h1, by simp only [Lit.value, value]; omega, ?_⟩
    have := natDigits_len h.1
    show (displayInt (digitsNat ds : Int)).length ≤ ds.length + 2
    show (Nat.toDigits 10 (digitsNat ds)).length ≤ ds.length + 2
    omega
  | dec a b =>
    have h1 : 1 ≤ a.length := List.length_pos_of_ne_nil h.1.1
    refine ⟨by simp only [Lit.text, List.length_append]; omega, by simp only [Lit.value, value]; omega, ?_⟩
    have hd : IsDecimal (a ++ ('.' :: b)) _ := ⟨a, b, rfl, h.1, h.2, rfl⟩
    exact display_length hd (Props.parse_nearest hd)
  | hex s => simp only [Lit.text, Lit.value, value, Size.str, Value.toStr, List.length_cons]; omega

theorem lit_numOk {l : Lit} (h : l.Ok ∨ l.Tight) : l.NumOk := by
  cases l <;> first | trivial | exact h.elim id id

theorem aval_len {v : AVal} (h : v.Ok) : 1 ≤ v.text.length ∧ value v.value ≤ 2 + v.text.length ∧ v.value.toStr.length ≤ v.text.length + 2 := by
  cases v with
  | lit l => exact lit_len l (lit_numOk (.inl h))
  | word s =>
    have := spaced_pos h.1
    simp only [AVal.text, AVal.value, value, Size.str, Value.toStr]; omega
  | dq x =>
    have := quote_len k!"\"" x
    simp only [List.length_cons, List.length_nil] at this
    simp only [AVal.text, AVal.value, value, Size.str, Value.toStr]; omega

theorem aval_size {v : AVal} (h : v.Ok) : literal v.ast ≤ 4 + 2 * v.text.length := by
  have := aval_len h
  simp only [literal, AVal.ast, str]; omega

/-! ## Settings -/

theorem attr_size {a : Attr} (h : a.Ok) : attr a.ast ≤ 6 * tl a.toks := by
  have h1 := spaced_pos h.1
  simp only [attr, Attr.ast, Attr.toks, key_size, keyTok, tl_cons]
  cases hv : a.value with
  | none => simp only [opt, Option.map_none, tl_nil]; omega
  | some v =>
    have := aval_size (h.2 v hv)
    simp only [opt, Option.map_some, tl_cons, tl_nil, colon, AVal.tok, List.length_cons, List.length_nil]; omega

theorem attrs_size {as : List Attr} (h : ∀ a ∈ as, a.Ok) : list attr (attrsAst as) ≤ 6 * list (fun a => tl a.toks) as := by
  unfold attrsAst
  rw [list_map _ attr (fun a : Attr => attr a.ast) (fun _ => rfl)]
  exact list_le_mul fun a ha => attr_size (h a ha)

theorem last_len {xs : List Attribute} {N : Nat} (h : ∀ a ∈ xs, ∀ l, a.value = some l → value l.value ≤ 2 + N ∧ l.value.toStr.length ≤ N + 2)
    (k : Str) : opt value ((lastValue k xs).map (·.value)) ≤ 2 + N ∧ opt str ((lastValue k xs).map (·.value.toStr)) ≤ N + 3 := by
  cases hl : lastValue k xs with
  | none => simp [opt]
  | some l =>
    obtain ⟨a, h1, -, h3⟩ := lastValue_mem hl
    have := h a h1 l h3
    simp only [opt, Option.map_some, str]; omega

theorem attr_val {a : Attr} (h : a.Ok) (l : Literal) (hl : a.ast.value = some l) :
    value l.value ≤ 2 + tl a.toks ∧ l.value.toStr.length ≤ tl a.toks + 2 := by
  simp only [Attr.ast] at hl
  cases hv : a.value with
  | none => rw [hv] at hl; cases hl
  | some v =>
    rw [hv] at hl
    cases hl
    have := aval_len (h.2 v hv)
    simp only [Attr.toks, hv, tl_cons, tl_nil, AVal.tok, AVal.ast]
    omega

theorem attrs_val {as : List Attr} (h : ∀ a ∈ as, a.Ok) : ∀ a ∈ attrsAst as, ∀ l, a.value = some l →
    value l.value ≤ 2 + list (fun a => tl a.toks) as ∧ l.value.toStr.length ≤ list (fun a => tl a.toks) as + 2 := by
  intro a ha l hl
  obtain ⟨b, hb, rfl⟩ := List.mem_map.1 ha
  have h1 := attr_val (h b hb) l hl
  have h2 : tl b.toks ≤ list (fun a => tl a.toks) as := le_list (f := fun a : Attr => tl a.toks) hb
  omega

theorem brackets_size {α β : Type} (f : α → List Tok) (g : List α → β) (sz : β → Nat) (s : Option (List α))
    (h : ∀ xs, s = some xs → sz (g xs) ≤ 8 * (list (fun a => tl (f a)) xs + 2)) : opt sz (s.map g) ≤ 8 * tl (optBrackets f s) := by
  cases s with
  | none => simp [opt]
  | some xs =>
    have h1 := h xs rfl
    have h2 := commaSep_len f xs
    simp only [opt, Option.map_some, optBrackets, brackets, tl_cons, tl_append, tl_nil, lbrack, rbrack, List.length_cons, List.length_nil]
    omega

/-! ## Notes and projects -/

theorem note_size {n : Note} (h : n.Ok) : note n.ast + 3 ≤ 8 * tl n.toks := by
  have hk : n.kw.length = 4 := by have := congrArg List.length h.1; simpa using this
  have := strLit_lit n.text
  simp only [note, Note.ast, Note.toks, tl_cons, hk]
  split <;> simp only [tl_cons, tl_nil, StrLit.tok] <;> omega

theorem dbType_size (p : Property) : opt dbType (dbTypeOf p) ≤ value p.value.value := by
  unfold dbTypeOf
  split
  · rename_i s hs
    rw [hs]
    split
    · split <;> simp [opt, dbType, value, str]
    · simp [opt]
  · simp [opt]

theorem projItem_size {i : ProjItem} (h : i.Ok) :
    opt property i.prop? + opt dbType (i.prop?.bind dbTypeOf) + opt note i.note? ≤ 8 * tl i.toks := by
  cases i with
  | note n =>
    have := note_size h
    simp only [ProjItem.prop?, ProjItem.note?, ProjItem.toks, opt, Option.bind_none]; omega
  | prop k v =>
    have h1 := spaced_pos h.1
    have h2 := aval_size h.2.1
    have h3 := aval_len h.2.1
    simp only [ProjItem.prop?, ProjItem.note?, ProjItem.toks, Option.bind_some]
    have h4 := dbType_size { span_range := .zero, key := keyAst k, value := v.ast }
    have h5 : value v.ast.value = value v.value := rfl
    simp only [opt, property, key_size, tl_cons, tl_nil, keyTok, colon, AVal.tok, List.length_cons, List.length_nil] at *
    omega

theorem filterMap_filterMap_size {α β γ : Type} (f : γ → Nat) (g : α → Option β) (h : β → Option γ) (l : List α) :
    list f ((l.filterMap g).filterMap h) = list (fun a => opt f ((g a).bind h)) l := by
  rw [List.filterMap_filterMap, list_filterMap]

theorem project_size {p : Source.Project} (h : p.Ok) : project p.ast + 1 ≤ 8 * tl p.toks := by
  have hk : p.kw.length = 8 := by have := congrArg List.length h.1; simpa using this
  have h1 := name_size h.2.1
  have h2 : list (fun i : ProjItem => opt property i.prop? + opt dbType (i.prop?.bind dbTypeOf) + opt note i.note?) p.items ≤
      8 * list (fun i => tl i.toks) p.items := list_le_mul fun i hi => projItem_size (h.2.2 i hi)
  have h3 := opt_last dbType ((p.items.filterMap (·.prop?)).filterMap dbTypeOf)
  have h4 := opt_last note (p.items.filterMap (·.note?))
  rw [filterMap_filterMap_size] at h3
  rw [list_filterMap] at h4
  simp only [← list_add] at h2
  simp only [project, Source.Project.ast, Source.Project.toks, tl_cons, tl_append, tl_nil, tl_flatMap, list_filterMap property, hk, Name.tok]
  omega

/-! ## References -/

theorem qual_size {s : Option Name} {n : Name} (hs : ∀ x, s = some x → x.Ok) (hn : n.Ok) :
    opt ident (s.map (·.ast)) + ident n.ast ≤ 5 * tl (qualToks s n) := by
  have h1 := name_size hn
  cases s with
  | none => simp only [opt, Option.map_none, qualToks, tl_cons, tl_nil, Name.tok]; omega
  | some x =>
    have h2 := name_size (hs x rfl)
    simp only [opt, Option.map_some, qualToks, tl_cons, tl_nil, Name.tok]; omega

theorem comp_size {c : Comp} (h : ∀ n ∈ c.names, n.Ok) : list ident (c.names.map (·.ast)) ≤ 5 * tl c.toks := by
  rw [list_map _ ident (fun n : Name => ident n.ast) (fun _ => rfl)]
  have h1 : list (fun n : Name => ident n.ast) c.names ≤ 5 * list (fun n : Name => n.text.length) c.names :=
    list_le_mul fun n hn => name_size (h n hn)
  cases c with
  | one n =>
    simp only [Comp.names, Comp.toks, list_cons, list_nil, tl_cons, tl_nil, Name.tok] at *; omega
  | many n ns =>
    have h2 := commaSep_len (fun m : Name => [m.tok]) (n :: ns)
    simp only [tl_cons, tl_nil, Nat.add_zero, Name.tok] at h2
    simp only [Comp.names, Comp.toks, tl_cons, tl_append, tl_nil] at *
    simp only [Name.tok]
    omega

theorem rend_size {r : REnd} (h : r.Ok) : refIdent r.ast ≤ 5 * tl r.toks := by
  have h1 := qual_size h.1 h.2.1
  have h2 := comp_size h.2.2
  simp only [refIdent, REnd.ast, REnd.toks, tl_append, tl_cons, dot, List.length_cons, List.length_nil]
  omega

theorem inlineRef_size {r : InlineRef} (h : r.Ok) : refInline r.ast ≤ 6 * tl r.toks := by
  have h1 := rend_size h.2
  simp only [refInline, InlineRef.ast, InlineRef.toks, tl_cons, List.length_cons, List.length_nil]
  omega

theorem ref_size {r : Source.Ref} (h : r.Ok) : ref r.ast + 1 ≤ 8 * tl r.toks := by
  obtain ⟨hk, hn, hl, hr, hrh, hs⟩ := h
  have hk : r.kw.length = 3 := by have := congrArg List.length hk; simpa using this
  have h1 := rend_size hl
  have h2 := rend_size hrh
  have h3 : opt refSettings (r.settings.map refSettingsAst) ≤ 8 * tl (optBrackets Attr.toks r.settings) :=
    brackets_size Attr.toks refSettingsAst refSettings r.settings fun as has => by
      have := attrs_size (hs as has).1
      simp only [refSettings, refSettingsAst]; omega
  have h4 : opt ident (r.name.map (·.ast)) ≤ 8 * tl (r.name.toList.map (·.tok)) := by
    cases hN : r.name with
    | none => simp [opt]
    | some n =>
      have := name_size (hn n hN)
      simp only [opt, Option.map_some, Option.toList, List.map_cons, List.map_nil, tl_cons, tl_nil, Name.tok]; omega
  simp only [ref, Source.Ref.ast, Source.Ref.toks, Source.Ref.stmtToks, tl_cons, tl_append, hk]
  split <;> simp only [tl_cons, tl_append, tl_nil] <;> omega

/-! ## Indexes -/

theorem icol_size {c : ICol} (h : c.Ok) : indexCol c.ast ≤ 6 * c.tok.txt.length := by
  cases c with
  | name n =>
    have h1 := name_pos (.inl (show n.Ok from h))
    simp only [indexCol, ICol.ast, ICol.tok, Name.tok, ident, str, Name.ast]; omega
  | expr x =>
    have := quote_len k!"`" x
    simp only [List.length_cons, List.length_nil] at this
    simp only [indexCol, ICol.ast, ICol.tok, literal, value, str]; omega

theorem idef_size {d : IDef} (h : d.Ok) : indexDef d.ast ≤ 8 * tl d.toks := by
  have hset : ∀ s, d.settings = s → opt indexSettings (s.map indexSettingsAst) ≤ 8 * tl (optBrackets Attr.toks s) := fun s e =>
    brackets_size Attr.toks indexSettingsAst indexSettings s fun as has => by
      have hok := (h.2 as (e.trans has)).1
      have h1 := attrs_size hok
      have h2 := (last_len (attrs_val hok) k!"note").2
      have h3 := (last_len (attrs_val hok) k!"name").2
      simp only [indexSettings, indexSettingsAst]; omega
  have hcols : list indexCol (d.cols.map (·.ast)) ≤ 6 * list (fun c : ICol => c.tok.txt.length) d.cols := by
    rw [list_map _ indexCol (fun c : ICol => indexCol c.ast) (fun _ => rfl)]
    exact list_le_mul fun c hc => icol_size (h.1 c hc)
  cases d with
  | single c s =>
    have h1 := hset s rfl
    have h2 : 1 ≤ c.tok.txt.length := by
      have hc : c.Ok := h.1 c (by simp [IDef.cols])
      cases c with
      | name n => exact (name_pos (.inl (show n.Ok from hc))).1
      | expr x => have := quote_len k!"`" x; simp only [List.length_cons, List.length_nil] at this; simp only [ICol.tok]; omega
    simp only [indexDef, IDef.ast, IDef.cols, IDef.settings, IDef.toks, tl_cons, list_cons, list_nil] at *
    omega
  | multi cs s =>
    have h1 := hset s rfl
    have h2 := commaSep_len (fun c : ICol => [c.tok]) cs
    simp only [tl_cons, tl_nil, Nat.add_zero] at h2
    simp only [indexDef, IDef.ast, IDef.cols, IDef.settings, IDef.toks, tl_cons, tl_append, lparen, rparen, List.length_cons, List.length_nil] at *
    omega

theorem idxs_size {i : Idxs} (h : i.Ok) : indexes i.ast ≤ 8 * tl i.toks := by
  have hk : i.kw.length = 7 := by have := congrArg List.length h.1; simpa using this
  have h1 : list indexDef (i.defs.map (·.ast)) ≤ 8 * list (fun d : IDef => tl d.toks) i.defs := by
    rw [list_map _ indexDef (fun d : IDef => indexDef d.ast) (fun _ => rfl)]
    exact list_le_mul fun d hd => idef_size (h.2 d hd)
  simp only [indexes, Idxs.ast, Idxs.toks, tl_cons, tl_append, tl_nil, tl_flatMap, hk]
  omega

/-! ## Enums -/

theorem eval_size {v : EVal} (h : v.Ok) : enumValue v.ast ≤ 8 * tl v.toks := by
  have h0 := name_pos (.inl h.1)
  have h1 := name_size h.1
  have h2 : opt enumSettings (v.settings.map enumSettingsAst) ≤ 8 * tl (optBrackets Attr.toks v.settings) :=
    brackets_size Attr.toks enumSettingsAst enumSettings v.settings fun as has => by
      have hok := h.2 as has
      have h1 := attrs_size hok
      have h2 := (last_len (attrs_val hok) k!"note").2
      simp only [enumSettings, enumSettingsAst]; omega
  simp only [enumValue, EVal.ast, EVal.toks, tl_cons, Name.tok]
  omega

theorem enum_size {e : Source.Enum} (h : e.Ok) : enum e.ast + 1 ≤ 8 * tl e.toks := by
  have hk : e.kw.length = 5 := by have := congrArg List.length h.1; simpa using this
  have h1 := qual_size h.2.1 h.2.2.1
  have h2 : list enumValue (e.values.map (·.ast)) ≤ 8 * list (fun v : EVal => tl v.toks) e.values := by
    rw [list_map _ enumValue (fun v : EVal => enumValue v.ast) (fun _ => rfl)]
    exact list_le_mul fun v hv => eval_size (h.2.2.2 v hv)
  simp only [enum, enumIdent, Source.Enum.ast, Source.Enum.toks, tl_cons, tl_append, tl_nil, tl_flatMap, hk]
  omega

/-! ## Column types -/

theorem flat_len {α : Type} (f : α → Str) (l : List α) : (l.flatMap f).length = list (fun a => (f a).length) l := by
  induction l with
  | nil => rfl
  | cons a l ih => simp [ih, list]

theorem args_size {o : Option (List Lit)} (h : ∀ l ∈ o.getD [], l.Tight) :
    list value ((o.getD []).map (·.value)) ≤ 3 * (argsText o).length := by
  rw [list_map _ value (fun l : Lit => value l.value) (fun _ => rfl)]
  cases o with
  | none => simp [list]
  | some vs =>
    cases vs with
    | nil => simp [list]
    | cons v vs =>
      have hv : ∀ l ∈ v :: vs, value l.value ≤ 3 * l.text.length := fun l hl => by
        have := lit_len l (lit_numOk (.inr (h l hl)))
        omega
      have h1 := hv v (by simp)
      have h2 : list (fun l : Lit => value l.value) vs ≤ 3 * list (fun l : Lit => l.text.length) vs :=
        list_le_mul fun l hl => hv l (by simp [hl])
      have h3 : list (fun l : Lit => l.text.length) vs ≤ list (fun l : Lit => (',' :: l.text).length) vs := list_le fun l _ => by simp
      simp only [Option.getD_some, list_cons, argsText, List.length_append, flat_len]
      omega

theorem arrays_size (rs : List (Option Str)) : list (fun _ : Option Nat => 1) (rs.map fun ds => ds.map digitsNat) ≤ 3 * (rs.flatMap arrayText).length := by
  rw [list_map (fun ds : Option Str => ds.map digitsNat) (fun _ => 1) (fun _ => 1) (fun _ => rfl), flat_len]
  refine list_le_mul fun r _ => ?_
  simp only [arrayText, List.length_cons]; omega

theorem body_size {b : TBody} (h : b.Ok) : 1 ≤ b.text.length ∧ b.name.length ≤ b.text.length ∧
    list value ((b.args.getD []).map (·.value)) + list (fun _ : Option Nat => 1) (b.arrays.map fun ds => ds.map digitsNat) + 3 ≤ 3 * b.text.length := by
  obtain ⟨hn, ha, -⟩ := h
  have h1 := args_size ha
  cases b with
  | plain n a r =>
    obtain ⟨c, cs, rfl, -⟩ := hn
    have h2 := arrays_size r
    simp only [TBody.text, TBody.name, TBody.args, TBody.arrays, List.length_append, List.length_cons] at *
    omega
  | quoted n a r r' =>
    have h2 := arrays_size (r ++ r')
    simp only [List.flatMap_append, List.length_append] at h2
    simp only [TBody.text, TBody.name, TBody.args, TBody.arrays, List.length_append, List.length_cons, List.length_nil] at *
    omega

theorem ty_size {t : Ty} (h : t.Ok) : columnType t.ast + 1 ≤ 5 * t.text.length + 2 := by
  obtain ⟨h1, h2, h3⟩ := body_size h.2.1
  simp only [columnType, Ty.ast, typeName, str]
  cases hs : t.schema with
  | none => simp only [Ty.text, hs]; omega
  | some s =>
    have h4 := name_pos (.inr (h.1 s hs))
    simp only [Ty.text, hs, List.length_append, List.length_cons]
    omega

/-! ## Tables -/

theorem colSet_size {i : ColSet} (h : i.Ok) : opt attr i.attr? + opt refInline i.ref? ≤ 6 * tl i.toks := by
  cases i with
  | attr a => have := attr_size (show a.Ok from h); simp only [ColSet.attr?, ColSet.ref?, ColSet.toks, opt]; omega
  | ref r => have := inlineRef_size (show r.Ok from h); simp only [ColSet.attr?, ColSet.ref?, ColSet.toks, opt]; omega

theorem colSettings_size {is : List ColSet} (h : ∀ i ∈ is, i.Ok) :
    columnSettings (colSettingsAst is) ≤ 8 * (list (fun i => tl i.toks) is + 2) := by
  have h1 : list (fun i : ColSet => opt attr i.attr? + opt refInline i.ref?) is ≤ 6 * list (fun i => tl i.toks) is :=
    list_le_mul fun i hi => colSet_size (h i hi)
  rw [← list_add] at h1
  have hv : ∀ a ∈ is.filterMap (·.attr?), ∀ l, a.value = some l →
      value l.value ≤ 2 + list (fun i => tl i.toks) is ∧ l.value.toStr.length ≤ list (fun i => tl i.toks) is + 2 := by
    intro a ha l hl
    obtain ⟨i, hi, e⟩ := List.mem_filterMap.1 ha
    have h2 : tl i.toks ≤ list (fun i => tl i.toks) is := le_list (f := fun i : ColSet => tl i.toks) hi
    cases i with
    | ref r => cases e
    | attr b =>
      cases e
      have := attr_val (h _ hi) l hl
      have h2 : tl b.toks ≤ list (fun i : ColSet => tl i.toks) is := h2
      omega
  have h2 := (last_len hv k!"note").2
  have h3 := (last_len hv k!"default").1
  simp only [columnSettings, colSettingsAst]
  rw [list_filterMap attr, list_filterMap refInline]
  omega

theorem col_size {c : Source.Col} (h : c.Ok) : column c.ast ≤ 8 * tl c.toks := by
  have h0 := name_pos (.inl h.1)
  have h1 := name_size h.1
  have h2 := ty_size h.2.1
  have h3 : opt columnSettings (c.settings.map colSettingsAst) ≤ 8 * tl (optBrackets ColSet.toks c.settings) :=
    brackets_size ColSet.toks colSettingsAst columnSettings c.settings fun is his => colSettings_size (h.2.2 is his)
  have h4 := (body_size h.2.1.2.1).1
  have h5 : 1 ≤ c.type.text.length := by
    unfold Ty.text
    split
    · exact h4
    · simp only [List.length_append, List.length_cons]; omega
  simp only [column, Source.Col.ast, Source.Col.toks, tl_cons, Name.tok, Ty.tok]
  omega

theorem titem_size {i : TItem} (h : i.Ok) : opt column i.col? + opt note i.note? + opt indexes i.indexes? ≤ 8 * tl i.toks := by
  cases i with
  | col c => have := col_size (show c.Ok from h); simp only [TItem.col?, TItem.note?, TItem.indexes?, TItem.toks, opt]; omega
  | note n => have := note_size (show n.Ok from h); simp only [TItem.col?, TItem.note?, TItem.indexes?, TItem.toks, opt]; omega
  | indexes i => have := idxs_size (show i.Ok from h); simp only [TItem.col?, TItem.note?, TItem.indexes?, TItem.toks, opt]; omega

theorem table_size {t : Source.Table} (h : t.Ok) : table t.ast + 1 ≤ 8 * tl t.toks := by
  obtain ⟨hk, hs, hn, ha, hset, hi⟩ := h
  have hk : t.kw.length = 6 := by have := congrArg List.length hk; simpa using this
  have h1 := qual_size hs hn
  have h2 : opt ident (t.alias.map (·.name.ast)) ≤ 8 * tl t.aliasToks := by
    unfold Source.Table.aliasToks
    cases hal : t.alias with
    | none => simp [opt]
    | some a =>
      have := name_size (ha a hal).2
      simp only [opt, Option.map_some, tl_cons, tl_nil, Name.tok]; omega
  have h3 : opt tableSettings (t.settings.map fun as => { attributes := attrsAst as }) ≤ 8 * tl (optBrackets Attr.toks t.settings) :=
    brackets_size Attr.toks _ tableSettings t.settings fun as has => by
      have := attrs_size (hset as has)
      simp only [tableSettings]; omega
  have h4 : list (fun i : TItem => opt column i.col? + opt note i.note? + opt indexes i.indexes?) t.items ≤
      8 * list (fun i => tl i.toks) t.items := list_le_mul fun i hi' => titem_size (hi i hi')
  have h5 := opt_last note (t.items.filterMap (·.note?))
  have h6 := opt_last indexes (t.items.filterMap (·.indexes?))
  rw [list_filterMap] at h5 h6
  simp only [← list_add] at h4
  simp only [table, tableIdent, Source.Table.ast, Source.Table.toks, tl_cons, tl_append, tl_nil, tl_flatMap, list_filterMap column, hk]
  omega

/-! ## Table groups -/

theorem gitem_size {i : GItem} (h : i.Ok) : opt groupItem i.item? + opt note i.note? ≤ 8 * tl i.toks := by
  cases i with
  | note n => have := note_size (show n.Ok from h); simp only [GItem.item?, GItem.note?, GItem.toks, opt]; omega
  | item s n =>
    have h1 := qual_size h.1 h.2
    have h2 := name_pos (.inl h.2)
    have h3 : 1 ≤ tl (qualToks s n) := by
      cases s with
      | none => simp only [qualToks, tl_cons, tl_nil, Name.tok]; omega
      | some x => simp only [qualToks, tl_cons, tl_nil, Name.tok]; omega
    show groupItem { schema := s.map (·.ast), ident_alias := n.ast } + 0 ≤ 8 * tl (qualToks s n)
    simp only [groupItem]; omega

theorem group_size {g : Source.Group} (h : g.Ok) : tableGroup g.ast + 1 ≤ 8 * tl g.toks := by
  obtain ⟨hk, hn, hset, hi⟩ := h
  have hk : g.kw.length = 11 := by have := congrArg List.length hk; simpa using this
  have h1 := name_size hn
  have h3 : opt groupSettings (g.settings.map fun as => { attributes := attrsAst as }) ≤ 8 * tl (optBrackets Attr.toks g.settings) :=
    brackets_size Attr.toks _ groupSettings g.settings fun as has => by
      have := attrs_size (hset as has)
      simp only [groupSettings]; omega
  have h4 : list (fun i : GItem => opt groupItem i.item? + opt note i.note?) g.items ≤
      8 * list (fun i => tl i.toks) g.items := list_le_mul fun i hi' => gitem_size (hi i hi')
  have h5 := opt_last note (g.items.filterMap (·.note?))
  rw [list_filterMap] at h5
  simp only [← list_add] at h4
  simp only [tableGroup, Source.Group.ast, Source.Group.toks, tl_cons, tl_append, tl_nil, tl_flatMap, list_filterMap groupItem, hk, Name.tok]
  omega

/-! ## Documents -/

theorem block_size {b : Source.Block} (h : b.Ok) : block b.ast ≤ 8 * tl b.toks := by
  cases b with
  | project p => have := project_size (show p.Ok from h); simp only [block, Source.Block.ast, Source.Block.toks]; omega
  | table p => have := table_size (show p.Ok from h); simp only [block, Source.Block.ast, Source.Block.toks]; omega
  | group p => have := group_size (show p.Ok from h); simp only [block, Source.Block.ast, Source.Block.toks]; omega
  | note p => have := note_size (show p.Ok from h); simp only [block, Source.Block.ast, Source.Block.toks]; omega
  | ref p => have := ref_size (show p.Ok from h); simp only [block, Source.Block.ast, Source.Block.toks]; omega
  | enum p => have := enum_size (show p.Ok from h); simp only [block, Source.Block.ast, Source.Block.toks]; omega

theorem doc_size {d : Doc} (h : d.Ok) : list block d.ast ≤ 8 * tl d.toks := by
  unfold Doc.ast Doc.toks
  rw [list_map _ block (fun b : Source.Block => block b.ast) (fun _ => rfl), tl_flatMap]
  exact list_le_mul fun b hb => block_size (h b hb)

theorem written_len : ∀ {ts : List Tok} {t : Str}, Written ts t → tl ts ≤ t.length
  | [], _, _ => by simp
  | x :: ts, _, ⟨w, r, e, _, _, hw⟩ => by
    have := written_len hw
    rw [e]
    simp only [tl_cons, List.length_append]; omega

end Dbml.Size

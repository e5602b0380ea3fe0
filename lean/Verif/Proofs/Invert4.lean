import Verif.Proofs.Invert3

/-!
# From a successful run back to the tokens: column types and columns
-/

namespace Dbml
open Syntax Source

/-! ## Column settings -/

theorem col_attr_lay : GetsR G.col_attribute .col_attribute
    (fun p => ∀ q ∈ p.children, q.rule = .attribute → Acc parseAttribute q) ColSet.Ok ColSet.toks := by
  intro pos s c r ps h
  obtain ⟨kids, sp, rfl, hb⟩ := rule_ok h rfl
  refine ⟨_, rfl, rfl, ?_⟩
  intro hw
  rcases alt_ok hb with hb | ⟨-, hb⟩
  · obtain ⟨p, rfl, -, h1⟩ := inline_lay _ _ _ _ _ hb
    obtain ⟨x, hx, hl⟩ := h1 trivial
    exact ⟨.ref x, hx, hl⟩
  · obtain ⟨p, rfl, h1, h2⟩ := attr_gets _ _ _ _ _ hb
    obtain ⟨x, hx, hl⟩ := h2 (hw p (by simp) h1)
    exact ⟨.attr x, hx, hl⟩

theorem col_settings_lay : GetsR G.col_settings .col_settings (Acc parseColSettings)
    (fun is => ∀ i ∈ is, ColSet.Ok i) (brackets ColSet.toks) := by
  intro pos s c r ps h
  obtain ⟨kids, sp, rfl, hb⟩ := rule_ok h rfl
  refine ⟨_, rfl, rfl, ?_⟩
  rintro ⟨x, hx⟩
  refine bracketed_lay (col_attr_lay.gets fun _ _ h => h) hb ?_
  intro p hp q hq hqr
  obtain ⟨a, a', ha⟩ := foldlM_steps hx p hp
  split at ha
  · obtain ⟨b, b', hb'⟩ := foldlM_steps ha q hq
    simp only [hqr] at hb'
    obtain ⟨y, hy, -⟩ := Rs.bind_eq_ok.1 hb'
    exact ⟨y, hy⟩
  · simp [throwRules] at ha

/-! ## Runs without skipping -/

theorem seq_okC {x y pos s c r ps} (h : run G.skip (.seq x y) .compound pos s = .ok c r ps) :
    ∃ c1 r1 p1 c2 p2, run G.skip x .compound pos s = .ok c1 r1 p1 ∧
      run G.skip y .compound (pos + blen c1) r1 = .ok c2 r p2 ∧ c = c1 ++ c2 ∧ ps = p1 ++ p2 := by
  simp only [run] at h
  obtain ⟨c1, r1, p1, t, r2, q, c2, p2, h1, h2, h3, h4, h5⟩ := seqRes_ok h
  simp [skipIf] at h2
  obtain ⟨rfl, rfl, -⟩ := h2
  exact ⟨c1, r1, p1, c2, p2, h1, by simpa using h3, by simpa using h4, h5⟩

theorem loop_okC {e : PExpr} {P : Str → Str → List Pair → Prop}
    (h0 : ∀ pos s, run G.skip e .compound pos s = .fail → P [] s [])
    (h1 : ∀ pos s c r ps c' r' ps', run G.skip e .compound pos s = .ok c r ps → P c' r' ps' →
      P (c ++ c') r' (ps ++ ps')) :
    ∀ fuel pos s c r ps, repLoop (fun p i => seqRes G.skip .compound p (.ok [] i [])
      (fun p' i' => run G.skip e .compound p' i')) fuel pos s = .ok c r ps → P c r ps := by
  intro fuel
  induction fuel with
  | zero => intro pos s c r ps hr; simp [repLoop] at hr
  | succ n ih =>
    intro pos s c r ps hr
    simp only [repLoop] at hr
    have hstep : seqRes G.skip .compound pos (.ok [] s []) (fun p' i' => run G.skip e .compound p' i') =
        run G.skip e .compound pos s := by
      cases hres : run G.skip e .compound pos s <;> simp [seqRes, skipIf, hres]
    rw [hstep] at hr
    split at hr
    · injection hr with e1 e2 e3
      subst e1 e2 e3
      exact h0 _ _ (by assumption)
    · contradiction
    · contradiction
    · rename_i c1 r1 p1 _ hs
      split at hr <;> try contradiction
      rename_i c2 r2 p2 hl
      injection hr with e1 e2 e3
      subst e1 e2 e3
      exact h1 _ _ _ _ _ _ _ _ hs (ih _ _ _ _ _ hl)

theorem star_okC {e : PExpr} {P : Str → Str → List Pair → Prop}
    (h0 : ∀ pos s, run G.skip e .compound pos s = .fail → P [] s [])
    (h1 : ∀ pos s c r ps c' r' ps', run G.skip e .compound pos s = .ok c r ps → P c' r' ps' →
      P (c ++ c') r' (ps ++ ps')) {pos s c r ps} (h : run G.skip (.star e) .compound pos s = .ok c r ps) :
    P c r ps := by
  simp only [run] at h
  split at h
  · injection h with e1 e2 e3
    subst e1 e2 e3
    exact h0 _ _ (by assumption)
  · contradiction
  · rename_i c1 r1 p1 hs
    split at h <;> try contradiction
    rename_i c2 r2 p2 hl
    injection h with e1 e2 e3
    subst e1 e2 e3
    exact h1 _ _ _ _ _ _ _ _ hs (loop_okC h0 h1 _ _ _ _ _ _ hl)

/-! ## Arrays -/

def ArrOk (o : Option Str) : Prop := ∀ ds, o = some ds → IsDigits ds ∧ digitsNat ds < 2 ^ 32

theorem array_ok {pos s c r ps} (h : run G.skip G.col_type_array .compound pos s = .ok c r ps) :
    ∃ o, c = arrayText o ∧ ∃ p, ps = [p] ∧ p.rule = .col_type_array ∧ (Acc parseColTypeArray p → ArrOk o) := by
  obtain ⟨kids, sp, rfl, hb⟩ := rule_ok h rfl
  obtain ⟨c1, r1, p1, c2, p2, h1, h2, rfl, rfl⟩ := seq_okC hb
  obtain ⟨rfl, rfl, rfl⟩ := str_ok h1
  obtain ⟨c3, r3, p3, c4, p4, h3, h4, rfl, rfl⟩ := seq_okC h2
  obtain ⟨rfl, -, rfl⟩ := str_ok h4
  rcases opt_ok h3 with ⟨-, rfl, rfl, rfl⟩ | h5
  · exact ⟨none, by simp [arrayText], _, rfl, rfl, by rintro - ds ⟨⟩⟩
  · obtain ⟨hd, -, sp', rfl⟩ := integer_ok (by simp) h5
    refine ⟨some c3, by simp [arrayText], _, rfl, rfl, ?_⟩
    rintro ⟨x, hx⟩ ds ⟨⟩
    refine ⟨hd, ?_⟩
    simp only [parseColTypeArray, Pair.children_mk, List.nil_append, List.append_nil, List.foldlM_cons,
      Pair.rule_mk, Pair.text_mk, Rs.bind_def] at hx
    cases hn : parseUnsigned c3 u32Max with
    | none => simp [hn, throwMsg] at hx
    | some n =>
      obtain ⟨-, hlt⟩ := parseUnsigned_some hn
      simp only [u32Max] at hlt
      omega

theorem array_fail {s : Str} {pos} (h : run G.skip G.col_type_array .compound pos s = .fail) : ¬ k!"[]" <+: s := by
  rintro ⟨t, rfl⟩
  simp [G.col_type_array, G.integer, G.ASCII_DIGIT, run, bodyAtomicity, seqRes, skipIf, stripPrefix, show G.isDigit ']' = false from rfl] at h

theorem arrays_ok {pos s c r ps} (h : run G.skip (.star G.col_type_array) .compound pos s = .ok c r ps) :
    (∃ os : List (Option Str), c = os.flatMap arrayText ∧
      ((∀ p ∈ ps, p.rule = .col_type_array → Acc parseColTypeArray p) → ∀ o ∈ os, ArrOk o)) ∧
    ¬ k!"[]" <+: r := by
  refine star_okC (P := fun c r ps => (∃ os : List (Option Str), c = os.flatMap arrayText ∧
      ((∀ p ∈ ps, p.rule = .col_type_array → Acc parseColTypeArray p) → ∀ o ∈ os, ArrOk o)) ∧
    ¬ k!"[]" <+: r) ?_ ?_ h
  · intro pos s hf
    exact ⟨⟨[], rfl, by simp⟩, array_fail hf⟩
  · rintro pos s c r ps c' r' ps' hr ⟨⟨os, rfl, h2⟩, h3⟩
    obtain ⟨o, rfl, p, rfl, hp, h4⟩ := array_ok hr
    refine ⟨⟨o :: os, by simp, ?_⟩, h3⟩
    intro hw x hx
    simp at hx
    rcases hx with rfl | hx
    · exact h4 (hw p (by simp) hp)
    · exact h2 (fun q hq => hw q (by simp [hq])) x hx

/-! ## Arguments -/

theorem Source.Lit.of_tight {l : Lit} {r : Str} (h : l.In .compound r) : l.Tight := by
  cases l with
  | str l => cases l <;> exact h
  | expr x => exact h
  | _ => exact h.1

theorem arg_tail_ok {pos s c r ps}
    (h : run G.skip (.star (.seq (.str k!",") G.value)) .compound pos s = .ok c r ps) :
    (∀ p ∈ ps, p.rule = .value) ∧ ((∀ p ∈ ps, Acc parseValue p) →
      ∃ vs : List Lit, c = vs.flatMap (fun v => ',' :: v.text) ∧ ∀ v ∈ vs, v.Tight) := by
  refine star_okC (P := fun c _ ps => (∀ p ∈ ps, p.rule = .value) ∧ ((∀ p ∈ ps, Acc parseValue p) →
      ∃ vs : List Lit, c = vs.flatMap (fun v => ',' :: v.text) ∧ ∀ v ∈ vs, v.Tight)) ?_ ?_ h
  · intro pos s hf
    exact ⟨by simp, fun _ => ⟨[], rfl, by simp⟩⟩
  · rintro pos s c r ps c' r' ps' hr ⟨hq, h2⟩
    obtain ⟨c1, r1, p1, c2, p2, h3, h4, rfl, rfl⟩ := seq_okC hr
    obtain ⟨rfl, -, rfl⟩ := str_ok h3
    obtain ⟨p, rfl, hp, -, -, h5⟩ := value_ok (by simp) h4
    refine ⟨?_, ?_⟩
    · intro q hm
      simp at hm
      rcases hm with rfl | hm
      · exact hp
      · exact hq q hm
    · intro hw
      obtain ⟨v, hv⟩ := hw p (by simp)
      obtain ⟨l, hl, rfl, -, -⟩ := h5 v hv
      obtain ⟨vs, rfl, hvs⟩ := h2 (fun q hq => hw q (by simp [hq]))
      refine ⟨l :: vs, by simp, ?_⟩
      intro x hx
      simp at hx
      rcases hx with rfl | hx
      · exact Lit.of_tight hl
      · exact hvs x hx

theorem args_ok {pos s c r ps} (h : run G.skip (.opt G.col_type_arg) .compound pos s = .ok c r ps) :
    (∀ p ∈ ps, p.rule = .col_type_arg → Acc parseColTypeArg p) →
      ∃ o : Option (List Lit), c = argsText o ∧ ∀ l ∈ o.getD [], l.Tight := by
  intro hw
  rcases opt_ok h with ⟨-, rfl, rfl, rfl⟩ | h
  · exact ⟨none, rfl, by simp⟩
  obtain ⟨kids, sp, rfl, hb⟩ := rule_ok h rfl
  obtain ⟨x, hx⟩ := hw _ (List.mem_singleton.2 rfl) rfl
  obtain ⟨c1, r1, p1, c2, p2, h1, h2, rfl, rfl⟩ := seq_okC hb
  obtain ⟨rfl, -, rfl⟩ := str_ok h1
  obtain ⟨c3, r3, p3, c4, p4, h3, h4, rfl, rfl⟩ := seq_okC h2
  obtain ⟨rfl, -, rfl⟩ := str_ok h4
  have hacc : ∀ p ∈ p3, p.rule = .value → Acc parseValue p := by
    intro p hp hr
    obtain ⟨a, a', ha⟩ := foldlM_steps hx p (by simp [hp])
    simp only [hr] at ha
    obtain ⟨y, hy, -⟩ := Rs.bind_eq_ok.1 ha
    exact ⟨y, hy⟩
  rcases opt_ok h3 with ⟨-, rfl, rfl, rfl⟩ | h5
  · exact ⟨some [], by simp [argsText], by simp⟩
  obtain ⟨c5, r5, p5, c6, p6, h6, h7, rfl, rfl⟩ := seq_okC h5
  obtain ⟨p, rfl, hp, -, -, h8⟩ := value_ok (by simp) h6
  obtain ⟨hq, h9⟩ := arg_tail_ok h7
  obtain ⟨v, hv⟩ := hacc p (by simp) hp
  obtain ⟨l, hl, rfl, -, -⟩ := h8 v hv
  obtain ⟨vs, rfl, hvs⟩ := h9 (fun q hm => hacc q (by simp [hm]) (hq q hm))
  refine ⟨some (l :: vs), by simp [argsText], ?_⟩
  intro x hx
  simp at hx
  rcases hx with rfl | hx
  · exact Lit.of_tight hl
  · exact hvs x hx

/-! ## Types -/

/-- The last character of the text, if it is a word character, is the last one of the name. -/
def EndsWord (s : Str) : Prop := ∃ cs c, s = cs ++ [c] ∧ IsWord c

theorem endsWord_append {a b : Str} (hb : b ≠ []) (h : EndsWord (a ++ b)) : EndsWord b := by
  obtain ⟨cs, c, h1, h2⟩ := h
  obtain ⟨bs, x, rfl⟩ : ∃ bs x, b = bs ++ [x] := ⟨b.dropLast, b.getLast hb, (List.dropLast_concat_getLast hb).symm⟩
  refine ⟨bs, x, rfl, ?_⟩
  rw [← List.append_assoc] at h1
  have := List.append_inj_right' h1 rfl
  simp at this
  rwa [this]

theorem not_endsWord {s : Str} {c : Char} (hc : ¬ IsWord c) : ¬ EndsWord (s ++ [c]) := by
  intro h
  obtain ⟨cs, x, h1, h2⟩ := endsWord_append (by simp) h
  have := List.append_inj_right' (s₁ := []) h1 rfl
  simp at this
  exact hc (this ▸ h2)

theorem arrays_end (os : List (Option Str)) : os.flatMap arrayText = [] ∨ ∃ t, os.flatMap arrayText = t ++ [']'] := by
  induction os with
  | nil => exact .inl rfl
  | cons o os ih =>
    refine .inr ?_
    rcases ih with ih | ⟨t, ih⟩
    · exact ⟨'[' :: o.getD [], by simp [ih, arrayText]⟩
    · exact ⟨arrayText o ++ t, by simp [ih]⟩

theorem args_end (a : Option (List Lit)) : argsText a = [] ∨ ∃ t, argsText a = t ++ [')'] := by
  match a with
  | none => exact .inl rfl
  | some [] => exact .inr ⟨k!"(", rfl⟩
  | some (v :: vs) => exact .inr ⟨k!"(" ++ (v.text ++ vs.flatMap (fun v => ',' :: v.text)), by simp [argsText]⟩

/-- The body of the fold over the parts of a type. -/
def TyAcc (p : Pair) : Prop :=
  ∀ q ∈ p.children, (q.rule = .col_type_arg → Acc parseColTypeArg q) ∧
    (q.rule = .col_type_array → Acc parseColTypeArray q)

theorem unquoted_ok {pos s c r ps} (h : run G.skip G.col_type_unquoted .compound pos s = .ok c r ps) :
    ∃ p, ps = [p] ∧ p.rule = .col_type_unquoted ∧ (TyAcc p → ∃ b : TBody, b.Ok ∧ c = b.text ∧ b.NoDot ∧
      (EndsWord b.text → Next.word r) ∧ ¬ k!"[]" <+: r) := by
  obtain ⟨kids, sp, rfl, hb⟩ := rule_ok h rfl
  refine ⟨_, rfl, rfl, ?_⟩
  intro hw
  obtain ⟨c1, r1, p1, c2, p2, h1, h2, rfl, rfl⟩ := seq_okC hb
  obtain ⟨hv, hn, rfl, sp', rfl⟩ := var_ok (by simp) h1
  obtain ⟨c3, r3, p3, c4, p4, h3, h4, rfl, rfl⟩ := seq_okC h2
  obtain ⟨o, rfl, ho⟩ := args_ok h3 (fun q hq => (hw q (by simp [hq])).1)
  obtain ⟨⟨os, rfl, hos⟩, hno⟩ := arrays_ok h4
  have hos := hos (fun q hq => (hw q (by simp [hq])).2)
  refine ⟨.plain c1 o os, ⟨hv, ho, hos⟩, rfl, trivial, ?_, hno⟩
  intro he
  simp only [TBody.text] at he
  have e1 := run_split h3
  have e2 := run_split h4
  rcases arrays_end os with e | ⟨t, e⟩
  · rw [e] at he e2
    rcases args_end o with e' | ⟨t, e'⟩
    · rw [e'] at e1
      simp at e1 e2
      subst e1 e2
      exact hn
    · rw [e', List.append_nil, ← List.append_assoc] at he
      exact absurd he (not_endsWord (by simp [IsWord]))
  · rw [e] at he
    rw [← List.append_assoc, ← List.append_assoc] at he
    exact absurd he (not_endsWord (by simp [IsWord]))

theorem quoted_type_ok {pos s c r ps} (h : run G.skip G.col_type_quoted .compound pos s = .ok c r ps) :
    ∃ p, ps = [p] ∧ p.rule = .col_type_quoted ∧ (TyAcc p → ∃ b : TBody, b.Ok ∧ c = b.text ∧
      ((∃ pos', run G.skip (.seq G.ident (.str k!".")) .compound pos' s = .fail) → b.NoDot) ∧
      (EndsWord b.text → Next.word r) ∧ ¬ k!"[]" <+: r) := by
  obtain ⟨kids, sp, rfl, hb⟩ := rule_ok h rfl
  refine ⟨_, rfl, rfl, ?_⟩
  intro hw
  obtain ⟨c1, r1, p1, c2, p2, h1, h2, rfl, rfl⟩ := seq_okC hb
  obtain ⟨rfl, rfl, rfl⟩ := str_ok h1
  obtain ⟨c3, r3, p3, c4, p4, h3, h4, rfl, rfl⟩ := seq_okC h2
  obtain ⟨hv, -, rfl, sp', rfl⟩ := spaced_ok (by simp) h3
  obtain ⟨c5, r5, p5, c6, p6, h5, h6, rfl, rfl⟩ := seq_okC h4
  have e5 := run_split h5
  obtain ⟨o, rfl, ho⟩ := args_ok h5 (fun q hq => (hw q (by simp [hq])).1)
  obtain ⟨c7, r7, p7, c8, p8, h7, h8, rfl, rfl⟩ := seq_okC h6
  have e7 := run_split h7
  obtain ⟨⟨os, rfl, hos⟩, -⟩ := arrays_ok h7
  have hos := hos (fun q hq => (hw q (by simp [hq])).2)
  obtain ⟨c9, r9, p9, c10, p10, h9, h10, rfl, rfl⟩ := seq_okC h8
  obtain ⟨rfl, rfl, rfl⟩ := str_ok h9
  have e10 := run_split h10
  obtain ⟨⟨os', rfl, hos'⟩, hno⟩ := arrays_ok h10
  have hos' := hos' (fun q hq => (hw q (by simp [hq])).2)
  refine ⟨.quoted c3 o os os', ⟨hv, ho, ?_⟩, by simp [TBody.text], ?_, ?_, hno⟩
  · intro x hx
    simp [TBody.arrays] at hx
    exact hx.elim (hos x) (hos' x)
  · rintro ⟨pos', hf⟩
    simp only [TBody.NoDot]
    generalize hu : c3 ++ (argsText o ++ (os.flatMap arrayText ++ k!"\"")) = u
    obtain ⟨v, hq1, hq2⟩ := first_quote u (by simp [← hu])
    generalize hwq : (u.dropWhile (· ≠ '"')).drop 1 = w at hq1
    intro hdot
    cases w with
    | nil => simp at hdot
    | cons x w =>
      simp at hdot
      subst hdot
      have e : k!"\"" ++ (c3 ++ r3) = (Name.quoted (.of v)).text ++ ('.' :: (w ++ r9)) := by
        have : k!"\"" ++ (c3 ++ r3) = k!"\"" ++ (u ++ r9) := by
          rw [← hu, e5, e7]; simp
        rw [this, hq1]
        simp [Name.text, Quote.text, Quote.of]
      obtain ⟨p, hid, -⟩ := ident_run (n := .quoted (.of v)) (r := '.' :: (w ++ r9)) ca
        ⟨rfl, closed_of_no_quote hq2⟩ pos'
      rw [e] at hf
      simp [run, hid, seqRes, skipIf, stripPrefix] at hf
  · intro he
    rcases arrays_end os' with e | ⟨t, e⟩
    · have : (TBody.quoted c3 o os os').text =
        (k!"\"" ++ (c3 ++ (argsText o ++ os.flatMap arrayText))) ++ ['"'] := by
        simp [TBody.text, e]
      rw [this] at he
      exact absurd he (not_endsWord (by simp [IsWord]))
    · have : (TBody.quoted c3 o os os').text =
        (k!"\"" ++ (c3 ++ (argsText o ++ (os.flatMap arrayText ++ (k!"\"" ++ t))))) ++ [']'] := by
        simp [TBody.text, e]
      rw [this] at he
      exact absurd he (not_endsWord (by simp [IsWord]))

theorem TBody.text_ne {b : TBody} (h : b.Ok) : b.text ≠ [] := by
  cases b with
  | plain n a r => have := var_ne h.1; simp [TBody.text, this]
  | quoted n a r r' => simp [TBody.text]

theorem type_lay : GetsR G.col_type .col_type (Acc parseColType) Ty.Ok (fun t => [t.tok]) := by
  intro pos s c r ps h
  obtain ⟨kids, sp, rfl, hb⟩ := rule_ok h rfl
  refine ⟨_, rfl, rfl, ?_⟩
  rintro ⟨x, hx⟩
  have hs := run_split h
  obtain ⟨z, hz, -⟩ := Rs.bind_eq_ok.1 hx
  obtain ⟨c1, r1, p1, c2, p2, h1, h2, rfl, rfl⟩ := seq_okC hb
  have hacc : ∀ p ∈ p2, p.rule = .col_type_quoted ∨ p.rule = .col_type_unquoted → TyAcc p := by
    intro p hp hr q hq
    obtain ⟨a, a', ha⟩ := foldlM_steps hz p (by simp [hp])
    have : ∃ (o o' : ColumnType) (sc : Option Ident), (match q.rule with
          | .var | .spaced_var =>
            (.ok { o with type_name := .raw (buildTypeNameWithSchema sc q) } : Rs ColumnType)
          | .col_type_arg => do
            let args ← parseColTypeArg q
            return { o with args := args }
          | .col_type_array => do
            let val ← parseColTypeArray q
            return { o with arrays := o.arrays ++ [val] }
          | _ => throwRules [.var, .spaced_var, .col_type_arg, .col_type_array] q) = .ok o' := by
      rcases hr with hr | hr <;>
      · simp only [hr] at ha
        obtain ⟨y, hy, -⟩ := Rs.bind_eq_ok.1 ha
        obtain ⟨o, o', ho⟩ := foldlM_steps hy q hq
        exact ⟨o, o', _, ho⟩
    obtain ⟨o, o', sc, ho⟩ := this
    constructor <;> intro hqr <;> simp only [hqr] at ho <;>
      (obtain ⟨y, hy, -⟩ := Rs.bind_eq_ok.1 ho; exact ⟨y, hy⟩)
  have key : ∃ b : TBody, b.Ok ∧ c2 = b.text ∧
      ((∃ pos', run G.skip (.seq G.ident (.str k!".")) .compound pos' r1 = .fail) → b.NoDot) ∧
      (EndsWord b.text → Next.word r) ∧ ¬ k!"[]" <+: r := by
    rcases alt_ok h2 with h3 | ⟨-, h3⟩
    · obtain ⟨p, rfl, hr, hb'⟩ := quoted_type_ok h3
      exact hb' (hacc p (by simp) (.inl hr))
    · obtain ⟨p, rfl, hr, hb'⟩ := unquoted_ok h3
      obtain ⟨b, q1, q2, q3, q4⟩ := hb' (hacc p (by simp) (.inr hr))
      exact ⟨b, q1, q2, fun _ => q3, q4⟩
  obtain ⟨b, hbok, rfl, hnd, hew, hno⟩ := key
  have hne := TBody.text_ne hbok
  rcases opt_ok h1 with ⟨hf, rfl, rfl, rfl⟩ | h3
  · refine ⟨⟨none, b⟩, ⟨by simp, hbok, ?_⟩, ?_⟩
    · intro _
      exact hnd ⟨_, hf⟩
    · subst hs
      exact Lay.tok rfl (by simpa using hne) ⟨hew, hno⟩
  · obtain ⟨c3, r3, p3, c4, p4, h4, h5, rfl, rfl⟩ := seq_okC h3
    obtain ⟨rfl, -, rfl⟩ := str_ok h5
    obtain ⟨n, hn, rfl, -, -⟩ := ident_ok (by simp) h4
    refine ⟨⟨some n, b⟩, ⟨?_, hbok, by simp⟩, ?_⟩
    · rintro _ ⟨⟩
      cases n with
      | word s => exact hn.1
      | quoted x => exact hn
    · subst hs
      refine Lay.tok (by simp [Ty.tok, Ty.text]) (by simp) ⟨?_, hno⟩
      intro he
      refine hew (endsWord_append (a := n.text ++ ['.']) hne ?_)
      simpa [EndsWord, Ty.text] using he

end Dbml

import Verif.Proofs.Viable3

/-!
# Completing a text: tokens
-/

namespace Dbml.Vp
open Syntax Source

theorem KeepT.sub {A C : Char → Bool} {e} (h : KeepT A e) (hs : ∀ c, A c = true → C c = true) : KeepT C e :=
  fun a s c r h1 h2 h3 w h4 h5 => h a s c r h1 h2 h3 w h4 (h5.sub hs)

theorem KeepT.rule {A e} (rl : Rule) (hn : e.noSoi = true) (h : KeepT A e) : KeepT A (.rule rl .normal e) :=
  fun a s c r h1 h2 h3 w h4 h5 => rn_rule (m := .normal) (h a s c r h1 h2 (rule_rn hn h3) w h4 h5)

theorem KeepT.alt {A x y} (hx : KeepT A x) (hy : KeepT A y) (nx : x.noSoi = true) (ny : y.noSoi = true)
    (wx : x.wf = true) (wy : y.wf = true) (n : x.nonNull = true) (n' : y.nonNull = true)
    (hsp : ∀ c, y.starts (some c) = true → ¬ IsSpace c ∧ c ≠ '/')
    (hd : ∀ c, y.starts (some c) = true → x.starts (some c) = false) : KeepT A (.alt x y) := by
  intro a s c r h1 h2 h3 w h4 h5
  rcases alt_rn nx ny h3 with h | ⟨hf, h⟩
  · exact rn_altL (hx a s c r h1 h2 h w h4 h5)
  · obtain ⟨d, t, rfl, hd'⟩ := rn_head wy h2 h (h.ne n')
    refine rn_altR (fl_off wx n (fun _ => (sol_cons (hsp d hd')).solid) ?_) (hy a s _ r h1 h2 h w h4 h5)
    intro c u e
    injection e with e _
    subst e
    exact hd _ hd'

theorem keepT_str {k : Str} : KeepT (fun _ => false) (.str k) := by
  intro a s c r h1 h2 h3 w h4 h5
  obtain ⟨ps, h3⟩ := h3 0
  obtain ⟨rfl, -, -⟩ := str_ok h3
  exact rn_str

/-! ## What follows -/

theorem isEnd_iff {d : Char} : isEnd d = true ↔ d = '\n' ∨ d = '"' ∨ d = ')' ∨ d = ']' := by
  simp [isEnd, or_assoc]
theorem isEnd2_iff {d : Char} : isEnd2 d = true ↔ d = '\n' ∨ d = '"' ∨ d = ')' ∨ d = ']' ∨ d = '(' ∨ d = '[' := by
  simp [isEnd2, isEnd, or_assoc]
theorem end_end2 {d : Char} (h : isEnd d = true) : isEnd2 d = true := by simp [isEnd2, h]

theorem end_word {d : Char} (h : isEnd2 d = true) : ¬ IsWord d := by
  rw [← isWordChar_iff]
  rcases isEnd2_iff.1 h with rfl | rfl | rfl | rfl | rfl | rfl <;> decide
theorem end_hex {d : Char} (h : isEnd2 d = true) : ¬ IsHexDigit d := by
  rw [← isHex_iff]
  rcases isEnd2_iff.1 h with rfl | rfl | rfl | rfl | rfl | rfl <;> decide
theorem end_digit {d : Char} (h : isEnd2 d = true) : d.isDigit = false := by
  rcases isEnd2_iff.1 h with rfl | rfl | rfl | rfl | rfl | rfl <;> decide
theorem end_ne {d x : Char} (h : isEnd2 d = true) (hx : isEnd2 x = false) : d ≠ x := by
  rintro rfl; rw [h] at hx; contradiction

theorem cut_headP {P : Char → Prop} (hP : ∀ d, isEnd2 d = true → P d) {r w : Str} (h : HeadP P r) (hc : Cut' r w) : HeadP P w := by
  obtain ⟨y, v, z, rfl, rfl, hz, hw⟩ := hc
  intro c t e
  cases y with
  | nil =>
    rcases hw with ⟨d, m, rfl, he⟩ | ⟨x, hx, -⟩
    · injection e with e _; exact e ▸ hP _ he
    · simp at hx
  | cons d y =>
    injection e with e _
    exact h c (y ++ v) (by rw [← e]; rfl)

theorem cut_word {r w : Str} (h : Next.word r) (hc : Cut' r w) : NotW w :=
  cut_headP (P := fun c => ¬ IsWord c) (fun _ => end_word) h hc

theorem not_spec {c : Char} (h : IsWord c) : isSpec c = false := by
  simp [isSpec, (isWordChar_iff c).2 h]

theorem cut_spaced {r w : Str} (h : Next.spaced r) (hc : Cut' r w) : NoCont w := by
  refine ⟨cut_word h.1 hc, ?_⟩
  obtain ⟨y, v, z, rfl, rfl, hz, hw⟩ := hc
  intro c t e
  match y, e with
  | [], e =>
    rcases hw with ⟨d, m, rfl, he⟩ | ⟨x, hx, -⟩
    · injection e with e _; subst e; simp [isEnd2, isEnd] at he
    · simp at hx
  | [d], e =>
    injection e with e1 e2
    subst e1
    rcases hw with ⟨d, m, rfl, he⟩ | ⟨x, hx, hs⟩
    · injection e2 with e2 _; subst e2; exact end_word he
    · simp at hx; subst hx; simp [isSpec] at hs
  | d :: d' :: y, e =>
    injection e with e1 e2
    injection e2 with e2 _
    subst e1 e2
    exact h.2 d' (y ++ v) rfl

theorem infix_cut {p z : Str} (hz : '/' ∉ z) (h : k!"*/" <:+: p ++ z) : k!"*/" <:+: p := by
  obtain ⟨l, r, e⟩ := h
  rw [List.append_eq_append_iff] at e
  rcases e with ⟨a, e1, e2⟩ | ⟨b, e1, e2⟩
  · exact ⟨l, a, e1.symm⟩
  · rcases List.eq_nil_or_concat b with rfl | ⟨b', x, rfl⟩
    · exact ⟨l, [], by simpa using e1⟩
    · exfalso
      have : x = '/' := by
        have := congrArg List.getLast? e1
        simp at this
        exact this.symm
      subst this
      exact hz (by rw [e2]; simp)

theorem cut_quote {a q r w} {x : Quote} (h : x.In a q r) (hc : Cut' r w) : x.In a q w := by
  cases a with
  | nonAtomic =>
    refine ⟨h.1, ?_⟩
    intro hp hi
    obtain ⟨y, v, z, rfl, rfl, hz, hw⟩ := hc
    apply h.2 hp
    have : x.val.drop 2 ++ (q ++ (y ++ z)) = (x.val.drop 2 ++ (q ++ y)) ++ z := by simp
    rw [this] at hi
    obtain ⟨l, r, e⟩ := infix_cut hz hi
    exact ⟨l, r ++ v, by rw [show x.val.drop 2 ++ (q ++ (y ++ v)) = (x.val.drop 2 ++ (q ++ y)) ++ v by simp, ← e]; simp⟩
  | _ => exact h

theorem cut_hex {h : Str} {r w : Str} (hr : (Lit.hex h).next r) (hc : Cut' r w) : (Lit.hex h).next w := by
  match h, hr with
  | [_, _, _], hr =>
    obtain ⟨y, v, z, rfl, rfl, hz, hw⟩ := hc
    rintro ⟨a, b, c, t, e, ha, hb, hc'⟩
    match y, e, hw, hr with
    | [], e, .inl ⟨_, m, hm, he⟩, _ => subst hm; injection e with e _; subst e; exact absurd ha (end_hex he)
    | [x], e, .inl ⟨_, m, hm, he⟩, _ => subst hm; injection e with _ e; injection e with e _; subst e; exact absurd hb (end_hex he)
    | [x, x'], e, .inl ⟨_, m, hm, he⟩, _ =>
      subst hm; injection e with _ e; injection e with _ e; injection e with e _; subst e; exact absurd hc' (end_hex he)
    | [], _, .inr ⟨d, hd, hs⟩, _ => simp at hd
    | [x], e, .inr ⟨d, hd, hs⟩, _ =>
      injection e with e _
      simp at hd
      subst hd e
      rw [not_spec (isHex_word ha)] at hs; contradiction
    | [x, x'], e, .inr ⟨d, hd, hs⟩, _ =>
      injection e with e1 e; injection e with e2 _
      simp at hd
      subst e1 e2
      rcases hd with rfl | rfl
      · rw [not_spec (isHex_word ha)] at hs; contradiction
      · rw [not_spec (isHex_word hb)] at hs; contradiction
    | x :: x' :: x'' :: y, e, _, hr =>
      injection e with e1 e; injection e with e2 e; injection e with e3 _
      subst e1 e2 e3
      exact hr ⟨x, x', x'', y ++ v, rfl, ha, hb, hc'⟩
  | [], _ => trivial
  | [_], _ => trivial
  | [_, _], _ => trivial
  | _ :: _ :: _ :: _ :: _, _ => trivial

/-! ## Tokens keep -/

theorem rn_of {e a s c r} (h : ∀ pos, ∃ p, run G.skip e a pos s = .ok c r p) : Rn e a s c r := h

theorem keepT_var : KeepT (fun _ => false) G.var := by
  intro a s c r ha _ h w hc _
  obtain ⟨ps, h⟩ := h 0
  obtain ⟨h1, h2, -⟩ := var_ok ha h
  exact fun pos => ⟨_, var_run ha h1 (cut_word h2 hc) pos⟩

theorem keepT_spaced : KeepT (fun _ => false) G.spaced_var := by
  intro a s c r ha _ h w hc _
  obtain ⟨ps, h⟩ := h 0
  obtain ⟨h1, h2, -⟩ := spaced_ok ha h
  exact fun pos => ⟨_, spaced_var_run ha h1 (cut_spaced h2 hc) pos⟩

theorem keepT_dq : KeepT (fun _ => false) G.double_quoted_string := by
  intro a s c r ha _ h w hc _
  obtain ⟨ps, h⟩ := h 0
  obtain ⟨x, h1, rfl, -⟩ := dq_ok ha h
  intro pos
  obtain ⟨sp, sp', h⟩ := dq_run ha (cut_quote h1 hc) pos
  exact ⟨_, h⟩

theorem keepT_bq : KeepT (fun _ => false) G.backquoted_quoted_string := by
  intro a s c r ha _ h w hc _
  obtain ⟨ps, h⟩ := h 0
  obtain ⟨x, h1, rfl, -⟩ := bq_ok ha h
  intro pos
  obtain ⟨sp, sp', h⟩ := bq_run ha (cut_quote h1 hc) pos
  exact ⟨_, h⟩

theorem keepT_ident : KeepT (fun _ => false) G.ident := by
  intro a s c r ha _ h w hc _
  obtain ⟨ps, h⟩ := h 0
  obtain ⟨n, h1, rfl, -⟩ := ident_ok ha h
  intro pos
  have : n.In a w := by
    cases n with
    | word s => exact ⟨h1.1, cut_word h1.2 hc⟩
    | quoted x => exact cut_quote h1 hc
  obtain ⟨p, h, -⟩ := ident_run ha this pos
  exact ⟨_, h⟩

def isQ (c : Char) : Bool := c == '\''

theorem keepT_string : KeepT isQ G.string_value := by
  intro a s c r ha _ h w hc ho
  obtain ⟨ps, h⟩ := h 0
  obtain ⟨l, h1, rfl, -⟩ := string_ok ha h
  intro pos
  have : l.In a w := by
    cases l with
    | single x => exact cut_quote h1 hc
    | triple x => exact cut_quote h1 hc
  obtain ⟨p, h, -⟩ := string_run ha this (fun _ c t e => by simpa [isQ] using ho c t e) pos
  exact ⟨_, h⟩

theorem keepT_hex : KeepT (fun _ => false) G.hex_value := by
  intro a s c r ha _ h w hc _
  obtain ⟨ps, h⟩ := h 0
  obtain ⟨ds, rfl, h1, h2, -⟩ := hex_ok ha h
  exact fun pos => ⟨_, hex_run ha h1.1 h1.2 (cut_hex h2 hc) pos⟩

theorem digits_next {a pos s c r ps} (ha : a ≠ .nonAtomic)
    (h : run G.skip (.seq G.ASCII_DIGIT (.star G.ASCII_DIGIT)) a pos s = .ok c r ps) :
    IsDigits c ∧ HeadP (fun c => c.isDigit = false) r := by
  obtain ⟨e, hm⟩ := run_sound skip_exact _ _ _ _ _ _ _ h
  refine ⟨(digits_ok ha hm).2, ?_⟩
  rw [seq_atomic ha] at hm
  obtain ⟨c1, c2, p1, p2, rfl, rfl, ⟨x, rfl, hx, rfl⟩, h2⟩ := hm
  obtain ⟨rfl, h3, h4⟩ := clsStar_ok ha h2
  intro c t e
  cases h : c.isDigit with
  | false => rfl
  | true => exact absurd ((isDigit_iff c).2 h) (h4 c t e)

theorem keepT_integer : KeepT (fun _ => false) G.integer := by
  intro a s c r ha _ h w hc _
  have h := rule_rn rfl h
  obtain ⟨ps, h⟩ := h 0
  obtain ⟨h1, h2⟩ := digits_next (by simp [bodyAtomicity]) h
  exact fun pos => ⟨_, integer_run ha h1 (cut_headP (P := fun c => c.isDigit = false) (fun _ => end_digit) h2 hc) pos⟩

theorem decimal_next {a s c r} (ha : a ≠ .atomic) (h : Rn G.decimal a s c r) :
    ∃ x y, c = x ++ ('.' :: y) ∧ IsDigits x ∧ (∀ c ∈ y, c.isDigit = true) ∧ HeadP (fun c => c.isDigit = false) r := by
  have h' := rule_rn rfl h
  obtain ⟨ps, h'⟩ := h' 0
  obtain ⟨e, hm⟩ := run_sound skip_exact _ _ _ _ _ _ _ h'
  have hne : bodyAtomicity .atomic a ≠ .nonAtomic := by simp [bodyAtomicity]
  rw [seq_atomic hne] at hm
  obtain ⟨c1, c2, p1, p2, rfl, rfl, h1, h2⟩ := hm
  obtain ⟨rfl, hd⟩ := digits_ok hne h1
  rw [seq_atomic hne] at h2
  obtain ⟨c3, c4, p3, p4, rfl, rfl, ⟨rfl, rfl⟩, h4⟩ := h2
  obtain ⟨rfl, h5, h6⟩ := clsStar_ok hne h4
  refine ⟨c1, c4, by simp, hd, fun d hd => (isDigit_iff _).1 (h5 _ hd), ?_⟩
  intro c t e
  cases h : c.isDigit with
  | false => rfl
  | true => exact absurd ((isDigit_iff c).2 h) (h6 c t e)

theorem keepT_number : KeepT (fun _ => false) G.number_value := by
  refine KeepT.rule _ rfl ?_
  intro a s c r ha _ h w hc _
  rcases alt_rn rfl rfl h with h | ⟨hf, h⟩
  · obtain ⟨x, y, rfl, h1, h2, h3⟩ := decimal_next ha h
    refine rn_altL fun pos => ?_
    have := decimal_run ha h1 h2 (cut_headP (P := fun c => c.isDigit = false) (fun _ => end_digit) h3 hc) pos
    exact ⟨_, by simpa using this⟩
  · have hk := keepT_integer a s c r ha (fun _ => by
      have h' := rule_rn rfl h
      obtain ⟨ps, h'⟩ := h' 0
      obtain ⟨⟨h1, h1'⟩, -⟩ := digits_next (by simp [bodyAtomicity]) h'
      obtain ⟨d, t, rfl⟩ := List.exists_cons_of_ne_nil h1
      have hd := digit_not_space (h1' d (by simp))
      rw [h.split]
      exact solid_cons hd.1 hd.2) h w hc (fun _ _ _ => rfl)
    have h' := rule_rn rfl h
    obtain ⟨ps, h'⟩ := h' 0
    obtain ⟨h1, h2⟩ := digits_next (by simp [bodyAtomicity]) h'
    refine rn_altR (fun pos => decimal_fail h1 ?_ pos) hk
    refine cut_headP (P := fun c => c ≠ '.' ∧ c.isDigit = false) (fun _ h => ⟨end_ne h (by decide), end_digit h⟩) ?_ hc
    intro d t e
    refine ⟨?_, h2 d t e⟩
    rintro rfl
    subst e
    have hsp := h.split
    subst hsp
    have : ∃ y u, t = y ++ u ∧ (∀ c ∈ y, c.isDigit = true) ∧ HeadP (fun c => c.isDigit = false) u := by
      refine ⟨t.takeWhile Char.isDigit, t.dropWhile Char.isDigit, (List.takeWhile_append_dropWhile).symm, ?_, ?_⟩
      · intro c hc; exact List.all_eq_true.1 (List.all_takeWhile (l := t) (p := Char.isDigit)) c hc
      · intro c u e
        have := List.head?_dropWhile_not Char.isDigit t
        rw [e] at this
        simpa using this
    obtain ⟨y, u, rfl, hy, hu⟩ := this
    have := decimal_run (a := a) ha h1 hy hu 0
    rw [hf 0] at this
    contradiction

theorem keepT_bool : KeepT (fun _ => false) G.boolean_value := by
  intro a s c r ha _ h w hc _
  have h := rule_rn rfl h
  refine rn_rule ?_
  rcases alt_rn rfl rfl h with h | ⟨-, h⟩
  · obtain ⟨ps, h⟩ := h 0
    obtain ⟨rfl, -, -⟩ := str_ok h
    exact rn_altL rn_str
  · have fl : ∀ {k : Str} {x : Char} {t k' : Str}, k = x :: t → ∀ {y u}, k' = y :: u → x ≠ y → ∀ w : Str, Fl (.str k) .atomic (k' ++ w) := by
      intro k x t k' hk y u hk' hne w pos
      subst hk hk'
      rw [str_fail_iff]
      rintro ⟨t, h⟩
      injection h with h _
      exact hne h
    rcases alt_rn rfl rfl h with h | ⟨-, h⟩
    · obtain ⟨ps, h⟩ := h 0
      obtain ⟨rfl, -, -⟩ := str_ok h
      exact rn_altR (fl rfl rfl (by decide) w) (rn_altL rn_str)
    · obtain ⟨ps, h⟩ := h 0
      obtain ⟨rfl, -, -⟩ := str_ok h
      exact rn_altR (fl rfl rfl (by decide) w) (rn_altR (fl rfl rfl (by decide) w) rn_str)

theorem keepT_relation : KeepT (fun _ => false) G.relation := by
  intro a s c r ha _ h w hc _
  have h := rule_rn rfl h
  refine rn_rule ?_
  have fl : ∀ {k : Str} {x : Char} {t k' : Str}, k = x :: t → ∀ {y u}, k' = y :: u → x ≠ y → ∀ w : Str, Fl (.str k) .atomic (k' ++ w) := by
    intro k x t k' hk y u hk' hne w pos
    subst hk hk'
    rw [str_fail_iff]
    rintro ⟨t, h⟩
    injection h with h _
    exact hne h
  rcases alt_rn rfl rfl h with h | ⟨hf, h⟩
  · obtain ⟨ps, h⟩ := h 0
    obtain ⟨rfl, -, -⟩ := str_ok h
    exact rn_altL rn_str
  rcases alt_rn rfl rfl h with h | ⟨-, h⟩
  · obtain ⟨ps, h⟩ := h 0
    obtain ⟨rfl, -, -⟩ := str_ok h
    exact rn_altR (fl rfl rfl (by decide) w) (rn_altL rn_str)
  rcases alt_rn rfl rfl h with h | ⟨-, h⟩
  · obtain ⟨ps, h⟩ := h 0
    obtain ⟨rfl, -, -⟩ := str_ok h
    exact rn_altR (fl rfl rfl (by decide) w) (rn_altR (fl rfl rfl (by decide) w) (rn_altL rn_str))
  · have hsp := h.split
    obtain ⟨ps, h⟩ := h 0
    obtain ⟨rfl, -, -⟩ := str_ok h
    refine rn_altR ?_ (rn_altR (fl rfl rfl (by decide) w) (rn_altR (fl rfl rfl (by decide) w) rn_str))
    have h1 : HeadP (· ≠ '>') r := by
      rintro d t rfl rfl
      have := hf 0
      subst hsp
      rw [str_fail_iff] at this
      exact this ⟨t, rfl⟩
    intro pos
    rw [str_fail_iff]
    rintro ⟨t, h⟩
    have h2 := cut_headP (fun _ h => end_ne h (by decide)) h1 hc
    cases w with
    | nil => simp at h
    | cons d w => simp at h; exact h2 d w rfl h.1.symm

theorem start_iff {e : PExpr} {L : List Char} (ha : ∀ c, e.starts (some c) = true → c.toNat < 128)
    (hd : ((List.range 128).all fun n => !(e.starts (some (Char.ofNat n))) || L.contains (Char.ofNat n)) = true) :
    ∀ c, e.starts (some c) = true → c ∈ L := by
  intro c h
  have h1 := ha c h
  rw [List.all_eq_true] at hd
  have := hd c.toNat (by simp [h1])
  simp [Char.ofNat_toNat, h] at this
  exact this

end Dbml.Vp

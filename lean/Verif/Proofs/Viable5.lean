import Verif.Proofs.Viable4

/-!
# Completing a text: combinators with checkable side conditions
-/

namespace Dbml.Vp
open Syntax Source

variable {R : Rule}

/-! ## Alternatives that exclude each other -/

theorem Viab.altX {a b : PExpr} {A B C : Char → Bool} {ta tb : Str} (ga : Viab a A ta) (gb : Viab b B tb)
    (hA : ∀ c, A c = true → C c = true) (hB : ∀ c, B c = true → C c = true) (nb : b.nonNull = true) (hta : ta ≠ [])
    (hx : ∀ s c r m, Sol s → Rn b .nonAtomic s c r → Leads r m → Sol m → Off C m → Fl a .nonAtomic s) :
    Viab (.alt a b) C ta := by
  refine ga.altG gb hA hB ?_ ?_ (fin_altL (ga.fin.sub hA) hta nb)
  · intro s c r hs hf hr hc w m hcut hl hm ho
    obtain ⟨c', r', h, hl'⟩ := gb.keep s c r hs hr hc w m hcut hl hm (ho.sub hB)
    obtain ⟨x, t, rfl, hx'⟩ := rn_head gb.wf (fun _ => hs) hr hc
    exact hx _ _ _ _ (sol_cons (gb.sp x hx')) h hl' hm ho
  · intro R s u v hs hf ht e hu
    obtain ⟨x, xs, rfl, hx'⟩ := tried_head gb.wf hs ht e hu
    obtain ⟨t, h0, h1, h2⟩ := gb.via _ _ _ hs ht e hu
    refine .inr ⟨t, h0, h1, fun m hm ho => ?_⟩
    obtain ⟨hW, c, r, h, hl⟩ := h2 m hm (ho.sub hB)
    exact ⟨hW, hx _ _ _ _ (sol_cons (gb.sp x hx')) h hl hm.2 ho, c, r, h, hl⟩

theorem rn_seqOpt {a b x s c r} (h : Rn (.seq a b) x s c r) : Rn (.seq (.opt a) b) x s c r := by
  intro pos
  obtain ⟨ps, h⟩ := h pos
  simp only [run] at h ⊢
  cases hr : run G.skip a x pos s with
  | ok c1 r1 p1 => rw [hr] at h; exact ⟨ps, h⟩
  | fail => rw [hr] at h; simp [seqRes] at h
  | diverge => rw [hr] at h; simp [seqRes] at h

theorem seqOpt_rn {a b : PExpr} {x s c r c1 r1} (h : Rn (.seq (.opt a) b) x s c r) (h1 : Rn a x s c1 r1) :
    Rn (.seq a b) x s c r := by
  intro pos
  obtain ⟨ps, h⟩ := h pos
  obtain ⟨p1, h1⟩ := h1 pos
  simp only [run, h1] at h ⊢
  exact ⟨ps, h⟩

/-- `a? ~ b` where what `b` accepts does not begin with what `a` accepts. -/
theorem Viab.optSeq {a b : PExpr} {A B C : Char → Bool} {t1 tb : Str} (gab : Viab (.seq a b) A t1) (gb : Viab b B tb)
    (hA : ∀ c, A c = true → C c = true) (hB : ∀ c, B c = true → C c = true) (nb : b.nonNull = true) (htb : tb ≠ [])
    (hx : ∀ s c r m, Sol s → Rn b .nonAtomic s c r → Leads r m → Sol m → Off C m → Fl a .nonAtomic s) :
    Viab (.seq (.opt a) b) C tb := by
  have wa : a.wf = true := by have := gab.wf; simp [PExpr.wf] at this; exact this.1
  have na : a.noSoi = true := by have := gab.ns; simp [PExpr.noSoi] at this; exact this.1
  have hst : ∀ c, (PExpr.seq (.opt a) b).starts (some c) = true → (PExpr.seq a b).starts (some c) = true ∨ b.starts (some c) = true := by
    intro c h
    simp only [PExpr.starts, Bool.or_eq_true, Bool.and_eq_true] at h ⊢
    rcases h with h | h
    · exact .inl (.inl h)
    · exact .inr h.2
  have run : ∀ {s c r m}, Sol s → Rn b .nonAtomic s c r → Leads r m → Sol m → Off C m →
      ∃ c', Rn (.seq (.opt a) b) .nonAtomic s c' r := by
    intro s c r m hs h hl hm ho
    exact rn_seq (rn_optN (hx s c r m hs h hl hm ho)) .refl hs h
  refine ⟨by simp [PExpr.wf, wa, gb.wf], by simp [PExpr.noSoi, na, gb.ns], ?_, ?_, ?_, ?_, gb.fin.1, .inl ?_⟩
  · intro c h
    rcases hst c h with h | h
    · exact gab.asc c h
    · exact gb.asc c h
  · intro c h
    rcases hst c h with h | h
    · exact gab.sp c h
    · exact gb.sp c h
  · intro s c r hs hr hc w m hcut hl hm ho
    obtain ⟨c1, g, r2, c2, ra, hg, rb, e⟩ := seq_rn (x := .opt a) na gb.ns hr
    rcases opt_rn na ra with ⟨hf, h1, h2⟩ | ra'
    · subst h1
      have hg0 : g = [] ∧ r2 = s := by
        have := (skip_of_solid hg.solid).2 hg
        rw [h2, skip_solid hs] at this
        injection this with h1 h2
        exact ⟨h1.symm, h2.symm⟩
      obtain ⟨rfl, rfl⟩ := hg0
      simp only [List.nil_append] at e
      subst e
      obtain ⟨c', r', h, hl'⟩ := gb.keep _ _ _ hs rb hc w m hcut hl hm (ho.sub hB)
      obtain ⟨x, t, rfl, hx'⟩ := rn_head gb.wf (fun _ => hs) rb hc
      obtain ⟨c'', h⟩ := run (sol_cons (gb.sp x hx')) h hl' hm ho
      exact ⟨c'', r', h, hl'⟩
    · obtain ⟨c', r', h, hl'⟩ := gab.keep _ _ _ hs (seqOpt_rn hr ra') hc w m hcut hl hm (ho.sub hA)
      exact ⟨c', r', rn_seqOpt h, hl'⟩
  · intro R s u v hs ht e hu
    have left : Tried R (.seq a b) .nonAtomic s v → ∃ t, Sm R t ∧ '/' ∉ t ∧ ∀ m, Tl m → Off C m →
        Wd u (t ++ '\n' :: m) ∧ ∃ c r, Rn (.seq (.opt a) b) .nonAtomic (u ++ (t ++ '\n' :: m)) c r ∧ Leads r m := by
      intro ht
      obtain ⟨t, h0, h1, h2⟩ := gab.via _ _ _ hs ht e hu
      refine ⟨t, h0, h1, fun m hm ho => ?_⟩
      obtain ⟨hW, c, r, h, hl⟩ := h2 m hm (ho.sub hA)
      exact ⟨hW, c, r, rn_seqOpt h, hl⟩
    cases ht with
    | seqL ht => cases ht with | opt ht => exact left (.seqL ht)
    | @seqR _ _ _ _ c r g r2 q _ ra hsk ht =>
      rcases opt_rn na ra with ⟨hf, h1, h2⟩ | ra'
      · subst h1 h2
        rw [show skipIf G.skip .nonAtomic r = G.skip r from rfl, skip_solid hs] at hsk
        injection hsk with h1 h2
        subst h2
        obtain ⟨x, xs, rfl, hx'⟩ := tried_head gb.wf hs ht e hu
        obtain ⟨t, h0, h1, h2⟩ := gb.via _ _ _ hs ht e hu
        refine ⟨t, h0, h1, fun m hm ho => ?_⟩
        obtain ⟨hW, c, r, h, hl⟩ := h2 m hm (ho.sub hB)
        obtain ⟨c'', h⟩ := run (sol_cons (gb.sp x hx')) h hl hm.2 ho
        exact ⟨hW, c'', r, h, hl⟩
      · exact left (.seqR ra' hsk ht)
  · obtain ⟨h1, ⟨h2, h3, h4, h5⟩ | ⟨h, -⟩⟩ := gb.fin
    · refine ⟨h2, h3, by simp [PExpr.nonNull, h4], fun m hm ho => ?_⟩
      obtain ⟨c, r, h, hl⟩ := h5 m hm (ho.sub hB)
      obtain ⟨c'', h⟩ := run (h3.app h2) h hl hm.2 ho
      exact ⟨c'', r, h, hl⟩
    · exact absurd h htb

/-! ## Side conditions that can be computed -/

/-- The characters in a list. -/
def inL (L : List Char) (c : Char) : Bool := L.contains c

/-- `e` does not start with a character in `L`. -/
def noS (e : PExpr) (L : List Char) : Bool := L.all fun c => !e.starts (some c)
/-- `e` and `f` start with different characters. -/
def dis (e f : PExpr) : Bool := (List.range 128).all fun n => !(e.starts (some (Char.ofNat n)) && f.starts (some (Char.ofNat n)))
/-- `e` only starts with a character in `L`. -/
def onlyS (e : PExpr) (L : List Char) : Bool := (List.range 128).all fun n => !(e.starts (some (Char.ofNat n))) || L.contains (Char.ofNat n)
def subL (L M : List Char) : Bool := L.all M.contains

theorem noS_sound {e L} (h : noS e L = true) : ∀ c, e.starts (some c) = true → inL L c = false := by
  intro c hc
  cases hi : inL L c with
  | false => rfl
  | true =>
    have := List.all_eq_true.1 h c (by simpa [inL] using hi)
    simp [hc] at this

theorem dis_sound {e f} (ha : ∀ c, f.starts (some c) = true → c.toNat < 128) (h : dis e f = true) :
    ∀ c, f.starts (some c) = true → e.starts (some c) = false := by
  intro c hc
  have := List.all_eq_true.1 h c.toNat (by simp [ha c hc])
  simpa [Char.ofNat_toNat, hc] using this

theorem onlyS_sound {e L} (ha : ∀ c, e.starts (some c) = true → c.toNat < 128) (h : onlyS e L = true) :
    ∀ c, e.starts (some c) = true → inL L c = true := by
  intro c hc
  have := List.all_eq_true.1 h c.toNat (by simp [ha c hc])
  simpa [Char.ofNat_toNat, hc, inL] using this

theorem subL_sound {L M} (h : subL L M = true) : ∀ c, inL L c = true → inL M c = true := by
  intro c hc
  have := List.all_eq_true.1 h c (by simpa [inL] using hc)
  simpa [inL] using this

theorem Viab.sub {e A C t} (g : Viab e A t) (h : ∀ c, A c = true → C c = true) : Viab e C t :=
  ⟨g.wf, g.ns, g.asc, g.sp, g.keep.sub h, fun R s u v h1 h2 h3 h4 => by
    obtain ⟨t, h0, h5, h6⟩ := g.via s u v h1 h2 h3 h4
    exact ⟨t, h0, h5, fun m hm ho => h6 m hm (ho.sub h)⟩, g.fin.sub h⟩

/-- Ways to complete a sample. -/
def tails : List Str :=
  [[], k!".x", k!":''", k!"{''}", k!"x.x", k!".x>x.x", k!">x.x", k!":x.x>x.x", k!"{x.x>x.x}", k!"{}", k!" x{}", k!"]", k!")", k!"}", k!" x}", k!":1", k!" x", k!":''}", k!".x>x.x}", k!">x.x}"]

/-- What can be tried first in `e` begins a text that `e` consumes. -/
def chk (e : PExpr) : Bool :=
  (firsts e).all fun R => tails.any fun t =>
    !(Spec.sample R ++ t).contains '/' && (match Spec.sample R ++ t with | [] => false | x :: _ => e.starts (some x)) &&
    (match run G.skip e .nonAtomic 0 (Spec.sample R ++ t) with | .ok _ [] _ => true | _ => false)

theorem fit_of {e A t} (g : Viab e A t) (h : chk e = true) : Fit e A := by
  intro R hR
  have h := List.all_eq_true.1 h R hR
  rw [List.any_eq_true] at h
  obtain ⟨t, -, h⟩ := h
  simp only [Bool.and_eq_true] at h
  obtain ⟨⟨h1, h2⟩, h3⟩ := h
  have h1 : '/' ∉ Spec.sample R ++ t := by
    intro hm
    rw [List.contains_iff_mem.2 hm] at h1
    contradiction
  refine ⟨t, ?_, h1, ?_⟩
  · split at h2
    · contradiction
    · rename_i x xs e; exact ⟨x, xs, e, h2⟩
  · intro m hm ho
    split at h2
    · contradiction
    rename_i x xs e1
    split at h3 <;> try contradiction
    rename_i c ps hr
    have hc : c = Spec.sample R ++ t := by have := run_split hr; simpa using this.symm
    subst hc
    have hs : Solid (Spec.sample R ++ t) := by rw [e1]; exact (sol_cons (g.sp x h2)).solid
    exact g.keep _ _ [] hs (.of g.ns hr) (by rw [e1]; simp) ('\n' :: m) m ⟨[], [], '\n' :: m, rfl, rfl, by simp [hm.1], wd_nl⟩ leads_nl hm.2 ho

def okSeq (a b : PExpr) (LA LB LC : List Char) (ta tb : Str) : Bool :=
  noS b LA && (a.nonNull || dis a b) && (a.nonNull || ta.isEmpty) &&
  (match tb with | [] => true | c :: _ => !LA.contains c) && subL LB LC && (b.nonNull || subL LA LC) && !(ta.isEmpty && tb.isEmpty) && chk b

theorem Viab.seqC {a b LA LB} (LC : List Char) {ta tb} (ga : Viab a (inL LA) ta) (gb : Viab b (inL LB) tb)
    (h : okSeq a b LA LB LC ta tb = true) : Viab (.seq a b) (inL LC) (joinT ta tb) := by
  simp only [okSeq, Bool.and_eq_true, Bool.or_eq_true] at h
  obtain ⟨⟨⟨⟨⟨⟨⟨h1, h2⟩, h3⟩, h4⟩, h5⟩, h6⟩, h7⟩, h8⟩ := h
  refine ga.seq gb (noS_sound h1) ?_ ?_ ?_ (subL_sound h5) ?_ ?_ (fit_of gb h8)
  · rcases h2 with h | h
    · exact .inl h
    · exact .inr (dis_sound gb.asc h)
  · rcases h3 with h | h
    · exact .inl h
    · exact .inr (by simpa using h)
  · rintro c t rfl
    simpa [inL] using h4
  · rcases h6 with h | h
    · exact .inl h
    · exact .inr (subL_sound h)
  · by_cases h : ta = []
    · subst h
      refine .inr ?_
      rintro rfl
      simp at h7
    · exact .inl h

theorem Viab.optC {a LA} (LC : List Char) {t} (g : Viab a (inL LA) t) (h : (onlyS a LC && subL LA LC) = true) :
    Viab (.opt a) (inL LC) [] := by
  simp only [Bool.and_eq_true] at h
  refine g.opt.sub ?_
  intro c hc
  simp only [Bool.or_eq_true] at hc
  rcases hc with hc | hc
  · exact onlyS_sound g.asc h.1 c hc
  · exact subL_sound h.2 c hc

theorem Viab.starC {a LA} (LC : List Char) {t} (g : Viab a (inL LA) t)
    (h : (a.nonNull && noS a LA && onlyS a LC && subL LA LC && chk a) = true) : Viab (.star a) (inL LC) [] := by
  simp only [Bool.and_eq_true] at h
  obtain ⟨⟨⟨⟨h1, h2⟩, h3⟩, h4⟩, h5⟩ := h
  refine (g.star h1 (noS_sound h2) (fit_of g h5)).sub ?_
  intro c hc
  simp only [Bool.or_eq_true] at hc
  rcases hc with hc | hc
  · exact onlyS_sound g.asc h3 c hc
  · exact subL_sound h4 c hc

theorem Viab.altC {a b LA LB} (LC : List Char) {ta tb} (ga : Viab a (inL LA) ta) (gb : Viab b (inL LB) tb)
    (h : (a.nonNull && b.nonNull && dis a b && subL LA LC && subL LB LC && !ta.isEmpty) = true) :
    Viab (.alt a b) (inL LC) ta := by
  simp only [Bool.and_eq_true] at h
  obtain ⟨⟨⟨⟨⟨h1, h2⟩, h3⟩, h4⟩, h5⟩, h6⟩ := h
  exact ga.alt gb (subL_sound h4) (subL_sound h5) h1 (dis_sound gb.asc h3)
    (fin_altL (ga.fin.sub (subL_sound h4)) (by simpa using h6) h2)

/-! ## Tokens -/

/-- A character that can start a token. -/
def Fst (c : Char) : Prop := c.toNat < 128 ∧ ¬ IsSpace c ∧ c ≠ '/'

theorem fst_of {c : Char} (h : 33 ≤ c.toNat ∧ c.toNat < 128 ∧ c.toNat ≠ 47) : Fst c := by
  refine ⟨h.2.1, ?_, ?_⟩
  · rintro (rfl | rfl | rfl | rfl) <;> simp at h
  · rintro rfl; simp at h

theorem fst_alpha {c : Char} (h : G.isAlpha c = true) : Fst c := by
  simp only [G.isAlpha, Bool.or_eq_true, Bool.and_eq_true, decide_eq_true_eq] at h
  apply fst_of
  rcases h with ⟨h1, h2⟩ | ⟨h1, h2⟩
  · have h1 : 97 ≤ c.toNat := h1
    have h2 : c.toNat ≤ 122 := h2
    omega
  · have h1 : 65 ≤ c.toNat := h1
    have h2 : c.toNat ≤ 90 := h2
    omega

theorem fst_digit {c : Char} (h : G.isDigit c = true) : Fst c := by
  simp only [G.isDigit, Bool.and_eq_true, decide_eq_true_eq] at h
  apply fst_of
  obtain ⟨h1, h2⟩ := h
  have h1 : 48 ≤ c.toNat := h1
  have h2 : c.toNat ≤ 57 := h2
  omega

theorem fst_str {k : Str} {x : Char} {c : Char} (hk : (PExpr.str k).starts (some c) = true) (h : k.head? = some x) (hx : Fst x) :
    Fst c := by
  cases k with
  | nil => simp at h
  | cons d t =>
    simp [PExpr.starts] at hk h
    subst h hk
    exact hx

theorem fst_seq {a b : PExpr} (hn : a.nonNull = true) (h : ∀ c, a.starts (some c) = true → Fst c) :
    ∀ c, (PExpr.seq a b).starts (some c) = true → Fst c := by
  intro c hc
  simp [PExpr.starts, hn] at hc
  exact h c hc
theorem fst_alt {a b : PExpr} (h : ∀ c, a.starts (some c) = true → Fst c) (h' : ∀ c, b.starts (some c) = true → Fst c) :
    ∀ c, (PExpr.alt a b).starts (some c) = true → Fst c := by
  intro c hc
  simp [PExpr.starts] at hc
  exact hc.elim (h c) (h' c)

theorem fst_lit {k : Str} {x : Char} (h : k.head? = some x) (hx : 33 ≤ x.toNat ∧ x.toNat < 128 ∧ x.toNat ≠ 47) :
    ∀ c, (PExpr.str k).starts (some c) = true → Fst c := fun _ hc => fst_str hc h (fst_of hx)

theorem fst_var : ∀ c, G.var.starts (some c) = true → Fst c := fst_seq (b := .star G.WORD) rfl (fun _ => fst_alpha)
theorem fst_spaced : ∀ c, G.spaced_var.starts (some c) = true → Fst c :=
  fst_seq (b := .star (.seq (.opt (.str k!" ")) G.WORD)) rfl (fun _ => fst_alpha)
theorem fst_dq : ∀ c, G.double_quoted_string.starts (some c) = true → Fst c := fst_seq (a := .str k!"\"") rfl (fst_lit rfl (by decide))
theorem fst_sq : ∀ c, G.single_quoted_string.starts (some c) = true → Fst c := fst_seq (a := .str k!"'") rfl (fst_lit rfl (by decide))
theorem fst_tq : ∀ c, G.triple_quoted_string.starts (some c) = true → Fst c := fst_seq (a := .str k!"'''") rfl (fst_lit rfl (by decide))
theorem fst_bq : ∀ c, G.backquoted_quoted_string.starts (some c) = true → Fst c := fst_seq (a := .str k!"`") rfl (fst_lit rfl (by decide))
theorem fst_string : ∀ c, G.string_value.starts (some c) = true → Fst c := fst_alt (a := G.triple_quoted_string) fst_tq fst_sq
theorem fst_ident : ∀ c, G.ident.starts (some c) = true → Fst c := fst_alt (a := G.var) fst_var fst_dq
theorem fst_integer : ∀ c, G.integer.starts (some c) = true → Fst c := fst_seq (a := G.ASCII_DIGIT) rfl (fun _ => fst_digit)
theorem fst_number : ∀ c, G.number_value.starts (some c) = true → Fst c :=
  fst_alt (a := G.decimal) (fst_seq (a := .seq G.ASCII_DIGIT (.star G.ASCII_DIGIT)) rfl (fst_seq rfl (fun _ => fst_digit))) fst_integer
theorem fst_bool : ∀ c, G.boolean_value.starts (some c) = true → Fst c :=
  fst_alt (a := .str k!"true") (fst_lit rfl (by decide)) (fst_alt (fst_lit rfl (by decide)) (fst_lit rfl (by decide)))
theorem fst_hex : ∀ c, G.hex_value.starts (some c) = true → Fst c := fst_seq (a := .str k!"#") rfl (fst_lit rfl (by decide))
theorem fst_value : ∀ c, G.value.starts (some c) = true → Fst c :=
  fst_alt (a := G.string_value) fst_string (fst_alt fst_bq (fst_alt fst_bool (fst_alt fst_number fst_hex)))
theorem fst_rel : ∀ c, G.relation.starts (some c) = true → Fst c :=
  fst_alt (a := .str k!"<>") (fst_lit rfl (by decide)) (fst_alt (fst_lit rfl (by decide)) (fst_alt (fst_lit rfl (by decide)) (fst_lit rfl (by decide))))

/-- A token followed by a line break. -/
theorem rn_any {e : PExpr} (hn : e.noSoi = true) {a s c r} (h : ∃ pos ps, run G.skip e a pos s = .ok c r ps) : Rn e a s c r := by
  obtain ⟨pos, ps, h⟩ := h
  exact .of hn h

theorem not_space_q (c : Char) (h : inL ['\''] c = true) : ¬ IsSpace c ∧ c ≠ '/' := by
  simp [inL] at h; subst h; decide
theorem not_space_none (c : Char) (h : inL [] c = true) : ¬ IsSpace c ∧ c ≠ '/' := by simp [inL] at h

theorem KeepT.inL {e : PExpr} (h : KeepT (fun _ => false) e) : KeepT (inL []) e := h.sub (by simp)
theorem keepT_string' : KeepT (inL ['\'']) G.string_value := keepT_string.sub (by intro c h; simpa [isQ, Vp.inL] using h)

theorem next_nl (m : Str) : NotW ('\n' :: m) := by
  intro c t e
  injection e with e _
  subst e
  exact end_word (by decide)

theorem viab_ident : Viab G.ident (inL []) k!"x" := by
  refine .tok (by decide) rfl rfl fst_ident rfl keepT_ident.inL not_space_none (by decide) (by decide) (by intro c t e; cases e; decide) ?_
  intro m pos
  obtain ⟨p, h, -⟩ := ident_run (a := .nonAtomic) (by simp) (n := .word k!"x") (r := '\n' :: m) ⟨⟨_, [], rfl, rfl, by simp⟩, next_nl m⟩ pos
  exact ⟨_, h⟩

theorem viab_spaced : Viab G.spaced_var (inL []) k!"x" := by
  refine .tok (by decide) rfl rfl fst_spaced rfl keepT_spaced.inL not_space_none (by decide) (by decide) (by intro c t e; cases e; decide) ?_
  intro m pos
  exact ⟨_, spaced_var_run (a := .nonAtomic) (by simp) (s := k!"x") (r := '\n' :: m) ⟨_, [], rfl, rfl, .nil⟩
    ⟨next_nl m, by intro c t e; simp at e⟩ pos⟩

theorem quote_nil {a q r} : Quote.In a q ⟨[], []⟩ r := by
  have hc : Closed q [] := by intro i hi; simp at hi
  cases a with
  | nonAtomic => exact ⟨⟨.nil, hc, by simp, by simp⟩, by simp [Quote.next]⟩
  | _ => exact ⟨rfl, hc⟩

theorem viab_dq : Viab G.double_quoted_string (inL []) k!"\"\"" := by
  refine .tok (by decide) rfl rfl fst_dq rfl keepT_dq.inL not_space_none (by decide) (by decide) (by intro c t e; cases e; decide) ?_
  intro m pos
  obtain ⟨sp, sp', h⟩ := dq_run (a := .nonAtomic) (by simp) (x := ⟨[], []⟩) (r := '\n' :: m) quote_nil pos
  exact ⟨_, h⟩

theorem viab_string : Viab G.string_value (inL ['\'']) k!"''" := by
  refine .tok (by decide) rfl rfl fst_string rfl keepT_string' not_space_q (by decide) (by decide) (by intro c t e; cases e; decide) ?_
  intro m pos
  obtain ⟨p, h, -⟩ := string_run (a := .nonAtomic) (by simp) (l := .single ⟨[], []⟩) (r := '\n' :: m) (quote_nil (a := .nonAtomic) (q := k!"'") (r := '\n' :: m)) (by intro _ c t e; injection e with e _; subst e; decide) pos
  exact ⟨_, h⟩

theorem viab_bq : Viab G.backquoted_quoted_string (inL []) k!"``" := by
  refine .tok (by decide) rfl rfl fst_bq rfl keepT_bq.inL not_space_none (by decide) (by decide) (by intro c t e; cases e; decide) ?_
  intro m pos
  obtain ⟨sp, sp', h⟩ := bq_run (a := .nonAtomic) (by simp) (x := ⟨[], []⟩) (r := '\n' :: m) quote_nil pos
  exact ⟨_, h⟩

theorem viab_relation : Viab G.relation (inL []) k!">" := by
  refine .tok (by decide) rfl rfl fst_rel rfl keepT_relation.inL not_space_none (by decide) (by decide) (by intro c t e; cases e; decide) ?_
  intro m
  refine rn_rule ?_
  refine rn_altR ?_ (rn_altR ?_ (rn_altL rn_str)) <;>
  · intro pos
    rw [str_fail_iff]
    rintro ⟨t, h⟩
    simp at h

theorem digit_end {d : Char} {m : Str} (h : isEnd2 d = true) : HeadP (fun c => c.isDigit = false) (d :: m) := by
  intro c t e; injection e with e _; subst e; exact end_digit h

theorem rn_one {a : Atomicity} (ha : a ≠ .atomic) {d : Char} (hd : isEnd2 d = true) (m : Str) :
    Rn G.value a (k!"1" ++ d :: m) k!"1" (d :: m) := by
  have hs : Solid (k!"1" ++ d :: m) := solid_cons (by decide) (by decide)
  have off : ∀ e : PExpr, e.starts (some '1') = false → ∀ c t, k!"1" ++ d :: m = c :: t → e.starts (some c) = false := by
    intro e he c t h; injection h with h _; subst h; exact he
  refine rn_rule (m := .normal) (rn_altR (fl_off (by decide) rfl (fun _ => hs) (off _ (by decide)))
    (rn_altR (fl_off (by decide) rfl (fun _ => hs) (off _ (by decide)))
    (rn_altR (fl_off (by decide) rfl (fun _ => hs) (off _ (by decide))) (rn_altL (rn_rule (m := .normal) (rn_altR ?_ ?_))))))
  · intro pos
    have h : HeadP (fun c => c ≠ '.' ∧ c.isDigit = false) (d :: m) := by
      intro c t e; injection e with e _; subst e; exact ⟨end_ne hd (by decide), end_digit hd⟩
    exact decimal_fail (x := k!"1") ⟨by simp, by simp⟩ h pos
  · exact fun pos => ⟨_, integer_run (ds := k!"1") (by simpa [bodyAtomicity] using ha) ⟨by simp, by simp⟩ (digit_end hd) pos⟩

theorem keepT_value : KeepT (inL ['\'']) G.value := by
  have no : ∀ {e}, KeepT (fun _ => false) e → KeepT (inL ['\'']) e := fun h => h.sub (by simp)
  have sp : ∀ {e : PExpr}, (∀ c, e.starts (some c) = true → Fst c) → ∀ c, e.starts (some c) = true → ¬ IsSpace c ∧ c ≠ '/' :=
    fun h c hc => (h c hc).2
  have f1 := fst_alt fst_number fst_hex
  have f2 := fst_alt fst_bool f1
  have f3 := fst_alt fst_bq f2
  refine KeepT.rule _ rfl (keepT_string'.alt ((no keepT_bq).alt ((no keepT_bool).alt ((no keepT_number).alt (no keepT_hex)
    rfl rfl ?_ ?_ rfl rfl ?_ ?_) rfl rfl ?_ ?_ rfl rfl ?_ ?_) rfl rfl ?_ ?_ rfl rfl ?_ ?_) rfl rfl ?_ ?_ rfl rfl ?_ ?_)
  all_goals first | decide | skip
  · exact sp fst_hex
  · exact dis_sound (fun c h => (fst_hex c h).1) (by decide +kernel)
  · exact sp f1
  · exact dis_sound (fun c h => (f1 c h).1) (by decide +kernel)
  · exact sp f2
  · exact dis_sound (fun c h => (f2 c h).1) (by decide +kernel)
  · exact sp f3
  · exact dis_sound (fun c h => (f3 c h).1) (by decide +kernel)

/-- A key word at the start of a word is inside it. -/
theorem word_prefix {k c w : Str} (hk : ∀ x ∈ k, IsWord x) (hw : NotW w) (h : k <+: c ++ w) : k <+: c := by
  obtain ⟨t, h⟩ := h
  rcases List.append_eq_append_iff.1 h with ⟨a, h1, h2⟩ | ⟨a, h1, h2⟩
  · exact ⟨a, h1.symm⟩
  · cases a with
    | nil => exact ⟨[], by simpa using h1⟩
    | cons x a => exact absurd (hk x (by rw [h1]; simp)) (hw x (a ++ t) (by rw [h2]; rfl))

theorem rn_bool {a} {k z : Str} (h : k = k!"true" ∨ k = k!"false" ∨ k = k!"null") : Rn G.boolean_value a (k ++ z) k z := by
  refine rn_rule ?_
  have fl : ∀ {k k' : Str} {b}, k.head? ≠ k'.head? → k ≠ [] → k' ≠ [] → Fl (.str k) b (k' ++ z) := by
    intro k k' b hne h1 h2 pos
    rw [str_fail_iff]
    rintro ⟨t, h⟩
    cases k <;> cases k' <;> simp_all
  rcases h with rfl | rfl | rfl
  · exact rn_altL rn_str
  · exact rn_altR (fl (by decide) (by decide) (by decide)) (rn_altL rn_str)
  · exact rn_altR (fl (by decide) (by decide) (by decide)) (rn_altR (fl (by decide) (by decide) (by decide)) rn_str)

/-- `value | spaced_var`. -/
theorem keepT_vs : KeepT (inL ['\'']) (.alt G.value G.spaced_var) := by
  intro a s c r ha hs h w hc ho
  rcases alt_rn rfl rfl h with h | ⟨hf, h⟩
  · exact rn_altL (keepT_value a s c r ha hs h w hc ho)
  · obtain ⟨ps, h'⟩ := h 0
    obtain ⟨h1, h2, -⟩ := spaced_ok ha h'
    have hnw := (cut_spaced h2 hc).1
    refine rn_altR ?_ (keepT_spaced a s c r ha hs h w hc (fun _ _ _ => rfl))
    have hsp := h.split
    subst hsp
    obtain ⟨x, t, rfl, hx, -⟩ := h1
    have hx' : G.isAlpha x = true := (isAlpha_iff x).2 hx
    have hsol : ∀ u : Str, Sol (x :: u) := fun u => sol_cons (fst_alpha hx').2
    have off : ∀ e : PExpr, dis e G.spaced_var = true → ∀ u c t, x :: u = c :: t → e.starts (some c) = false := by
      intro e he u c t e'
      injection e' with e' _
      subst e'
      exact dis_sound (fun c h => (fst_spaced c h).1) he x (by
        show (G.isAlpha x || _) = true
        simp [hx'])
    have k1 : ∀ u, Fl G.string_value a (x :: u) := fun u => fl_off (by decide) rfl (fun _ => (hsol u).solid) (off _ (by decide +kernel) u)
    have k2 : ∀ u, Fl G.backquoted_quoted_string a (x :: u) := fun u => fl_off (by decide) rfl (fun _ => (hsol u).solid) (off _ (by decide +kernel) u)
    have k4 : ∀ u, Fl (.alt G.number_value G.hex_value) a (x :: u) :=
      fun u => fl_off (by decide) rfl (fun _ => (hsol u).solid) (off _ (by decide +kernel) u)
    have bne : bodyAtomicity .normal a = a := rfl
    have k3 : Fl G.boolean_value a (x :: t ++ w) := by
      rcases rn_or_fl (e := G.boolean_value) rfl (by decide) a (x :: t ++ w) with ⟨c', r', hb⟩ | hb
      · exfalso
        have hb := rule_rn rfl hb
        have hk : c' <+: x :: t ++ w := ⟨r', hb.split.symm⟩
        have hcases : c' = k!"true" ∨ c' = k!"false" ∨ c' = k!"null" := by
          rcases alt_rn rfl rfl hb with hb | ⟨-, hb⟩
          · obtain ⟨_, hb⟩ := hb 0; exact .inl (str_ok hb).1
          rcases alt_rn rfl rfl hb with hb | ⟨-, hb⟩
          · obtain ⟨_, hb⟩ := hb 0; exact .inr (.inl (str_ok hb).1)
          · obtain ⟨_, hb⟩ := hb 0; exact .inr (.inr (str_ok hb).1)
        have hkw : ∀ y ∈ c', IsWord y := by
          intro y hy
          rw [← isWordChar_iff]
          revert y
          rcases hcases with rfl | rfl | rfl <;> decide
        obtain ⟨v, hv⟩ := word_prefix hkw hnw hk
        have hb2 : Rn G.boolean_value a (x :: t ++ r) c' (v ++ r) := by
          rw [← hv, List.append_assoc]
          exact rn_bool hcases
        exact (rn_rule (rl := .value) (m := .normal) (a := a) (rn_altR (k1 _) (rn_altR (k2 _) (rn_altL hb2)))).not_fl hf
      · exact hb
    exact fl_rule (fl_alt (k1 _) (fl_alt (k2 _) (fl_alt k3 (k4 _))))

end Dbml.Vp

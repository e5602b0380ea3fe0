import Verif.Proofs.Viable8

/-!
# Completing a text: column types
-/

namespace Dbml.Vp
open Syntax Source

variable {R : Rule}

theorem end_off {L : List Char} (h : (L.all fun c => !isEnd c) = true) {c : Char} {t : Str} (hc : isEnd c = true) : Off (inL L) (c :: t) := by
  intro d u e
  injection e with e _
  subst e
  cases hi : inL L c with
  | false => rfl
  | true =>
    have := List.all_eq_true.1 h c (by simpa [inL] using hi)
    simp [hc] at this

theorem off_start {e : PExpr} {L : List Char} (h : noS e L = true) : ∀ c t, e.starts (some c) = true → Off (inL L) (c :: t) := by
  intro c t hc d u e'
  injection e' with e' _
  subst e'
  exact noS_sound h c hc

theorem off_nil {w : Str} : Off (inL []) w := fun _ _ _ => rfl

/-- `e` fails on what does not begin with a character in `L`. -/
theorem fl_offL {e : PExpr} {L : List Char} (hw : e.wf = true) (hn : e.nonNull = true)
    (ha : ∀ c, e.starts (some c) = true → c.toNat < 128) (h : onlyS e L = true) {w : Str} (ho : Off (inL L) w) : Fl e .compound w := by
  refine fl_off hw hn (by simp) ?_
  intro c t e'
  cases hs : e.starts (some c) with
  | false => rfl
  | true => have := ho c t e'; rw [onlyS_sound ha h c hs] at this; contradiction

theorem asc_str {d : Char} {X : PExpr} (hd : d.toNat < 128) : ∀ c, (PExpr.seq (.str [d]) X).starts (some c) = true → c.toNat < 128 := by
  intro c h
  have : c = d := by simpa [PExpr.starts, PExpr.nonNull] using h
  exact this ▸ hd

/-! ## Arguments -/

def argTail : PExpr := .star (.seq (.str k!",") G.value)
def argBody : PExpr := .seq (.opt (.seq G.value argTail)) (.str k!")")

theorem finC_one : FinC G.value k!"1" := ⟨by decide, fun d m hd _ => rn_one (by simp) (end_end2 hd) m⟩
theorem keepC_value : KeepC (Off (inL ['\''])) G.value := keepC_tok keepT_value
theorem viaC_value : ViaC G.value := viaC_tok rfl

theorem stop_comma : Stop (.str k!",") := stop_str ⟨',', by simp, by decide⟩
theorem stop_lp : Stop (.str k!"(") := stop_str ⟨'(', by simp, by decide⟩
theorem stop_lb : Stop (.str k!"[") := stop_str ⟨'[', by simp, by decide⟩
theorem stop_dq : Stop (.str k!"\"") := stop_str ⟨'"', by simp, by decide⟩

theorem keepC_cv : KeepC (Off (inL ['\''])) (.seq (.str k!",") G.value) :=
  KeepC.seq (PA := fun _ => True) keepC_str keepC_value rfl rfl (by decide) (fun _ _ _ => trivial) (.inl rfl) (fun _ h => h)
theorem viaC_cv : ViaC (.seq (.str k!",") G.value) :=
  ViaC.seq (PA := fun _ => True) keepC_str (viaC_tok rfl) viaC_value finC_one (by decide) (fun _ _ _ => trivial) (.inl stop_comma)
    (fitC_of (k := false) keepC_value rfl (fun _ _ h => end_off (by decide) h) (by decide +kernel))

theorem fl_cv {w : Str} (h : Off (inL [',', '\'']) w) : Fl (.seq (.str k!",") G.value) .compound w :=
  fl_offL (by decide) rfl (asc_str (by decide)) (by decide +kernel) h

theorem keepC_argTail : KeepC (Off (inL [',', '\''])) argTail :=
  keepC_cv.star (by decide) rfl rfl (off_start (by decide +kernel)) (fun w h => ⟨h.sub (subL_sound (by decide)), fl_cv h⟩)
theorem viaC_argTail : ViaC argTail :=
  .star (by decide) rfl keepC_cv viaC_cv (off_start (by decide +kernel)) (fun c t h => ⟨end_off (by decide) h, fl_cv (end_off (by decide) h)⟩)
    (fitC_of keepC_cv rfl (fun _ _ h => end_off (by decide) h) (by decide +kernel))
theorem finC_argTail : FinC argTail [] := .star (by decide) rfl (by decide +kernel)

theorem keepC_args : KeepC (Off (inL [',', '\''])) (.seq G.value argTail) :=
  KeepC.seq keepC_value keepC_argTail rfl rfl (by decide) (off_start (by decide +kernel)) (.inr fun w h => h.sub (subL_sound (by decide))) (fun _ h => h)
theorem viaC_args : ViaC (.seq G.value argTail) :=
  .seq keepC_value viaC_value viaC_argTail finC_argTail (by decide) (off_start (by decide +kernel)) (.inr ⟨rfl, .inl rfl⟩)
    (fitC_of keepC_argTail rfl (fun _ _ h => end_off (by decide) h) (by decide +kernel))

theorem finC_rp : FinC (.str k!")") k!")" := finC_str (by decide)
theorem finC_optArgs : FinC (.opt (.seq G.value argTail)) [] := .opt (by decide) rfl (by decide +kernel)

theorem args_rp (w : Str) : Off (inL [',', '\'']) (')' :: w) ∧ Fl (.seq G.value argTail) .compound (')' :: w) :=
  ⟨end_off (by decide) (by decide), fl_end (by decide) rfl (by decide +kernel) (by decide)⟩

theorem start_rp {c : Char} (h : (PExpr.str k!")").starts (some c) = true) : c = ')' := by simpa [PExpr.starts] using h

theorem keepC_optArgs : KeepC (fun w => Off (inL [',', '\'']) w ∧ Fl (.seq G.value argTail) .compound w) (.opt (.seq G.value argTail)) :=
  keepC_args.opt rfl (fun _ h => h)

theorem keepC_argBody {P} : KeepC P argBody :=
  KeepC.seq keepC_optArgs (keepC_str (P := P)) rfl rfl rfl
    (fun c t h => by rw [start_rp h]; exact args_rp t) (.inl rfl) (fun _ h => h)
theorem viaC_argBody : ViaC argBody :=
  .seq keepC_optArgs viaC_args.opt (viaC_tok rfl) finC_rp rfl
    (fun c t h => by rw [start_rp h]; exact args_rp t) (.inr ⟨rfl, .inr ⟨_, _, rfl, by decide⟩⟩)
    (fitC_of (P := fun _ => True) keepC_str rfl (fun _ _ _ => trivial) rfl)
theorem finC_argBody : FinC argBody k!")" := FinC.seq finC_optArgs finC_rp (.inr (.inr ⟨_, _, rfl, by decide⟩))

theorem keepC_arg {P} : KeepC P G.col_type_arg :=
  .rule (by decide) rfl (KeepC.seq (PA := fun _ => True) keepC_str keepC_argBody rfl rfl (by decide) (fun _ _ _ => trivial) (.inl rfl) (fun _ h => h))
theorem viaC_arg : ViaC G.col_type_arg :=
  .rule (by decide) (.seq (PA := fun _ => True) keepC_str (viaC_tok rfl) viaC_argBody finC_argBody (by decide)
    (fun _ _ _ => trivial) (.inl stop_lp) (fitC_of (k := false) (P := fun _ => True) keepC_argBody rfl (fun _ _ _ => trivial) (by decide +kernel)))

/-! ## Arrays -/

theorem digit_off {w : Str} (h : Off (inL k!"0123456789") w) : Fl G.integer .compound w :=
  fl_offL (by decide) rfl (fun c h => (fst_integer c h).1) (by decide +kernel) h
theorem start_rb {c : Char} (h : (PExpr.str k!"]").starts (some c) = true) : c = ']' := by simpa [PExpr.starts] using h

def arrBody : PExpr := .seq (.opt G.integer) (.str k!"]")

theorem keepC_optInt : KeepC (Off (inL k!"0123456789")) (.opt G.integer) :=
  KeepC.opt (PA := Off (inL [])) (keepC_tok keepT_integer.inL) rfl (fun w h => ⟨off_nil, digit_off h⟩)

theorem keepC_arrBody {P} : KeepC P arrBody :=
  KeepC.seq keepC_optInt (keepC_str (P := P)) rfl rfl rfl
    (fun c t h => by rw [start_rb h]; exact end_off (by decide) (by decide)) (.inl rfl) (fun _ h => h)
theorem viaC_arrBody : ViaC arrBody :=
  .seq keepC_optInt (.opt (viaC_tok rfl)) (viaC_tok rfl) (finC_str (by decide)) rfl
    (fun c t h => by rw [start_rb h]; exact end_off (by decide) (by decide)) (.inr ⟨rfl, .inr ⟨_, _, rfl, by decide⟩⟩)
    (fitC_of (P := fun _ => True) keepC_str rfl (fun _ _ _ => trivial) rfl)
theorem finC_arrBody : FinC arrBody k!"]" :=
  FinC.seq (.opt (by decide) rfl (by decide +kernel)) (finC_str (by decide)) (.inr (.inr ⟨_, _, rfl, by decide⟩))

theorem keepC_array {P} : KeepC P G.col_type_array :=
  .rule (by decide) rfl (KeepC.seq (PA := fun _ => True) keepC_str keepC_arrBody rfl rfl (by decide) (fun _ _ _ => trivial) (.inl rfl) (fun _ h => h))
theorem viaC_array : ViaC G.col_type_array :=
  .rule (by decide) (.seq (PA := fun _ => True) keepC_str (viaC_tok rfl) viaC_arrBody finC_arrBody (by decide)
    (fun _ _ _ => trivial) (.inl stop_lb) (fitC_of (k := false) (P := fun _ => True) keepC_arrBody rfl (fun _ _ _ => trivial) (by decide +kernel)))

/-- No array follows. -/
def NoArr (w : Str) : Prop := Fl G.col_type_array .compound w

theorem noArr_of {w : Str} (h : Off (inL ['[']) w) : NoArr w :=
  fl_offL (e := G.col_type_array) (by decide) rfl (asc_str (d := '[') (X := arrBody) (by decide)) (by decide +kernel) h
theorem noArr_end {c : Char} {t : Str} (h : isEnd c = true) : NoArr (c :: t) := noArr_of (end_off (by decide) h)

theorem keepC_arrays : KeepC NoArr (.star G.col_type_array) :=
  KeepC.star (P := fun _ => True) keepC_array (by decide) rfl rfl (fun _ _ _ => trivial) (fun _ h => ⟨trivial, h⟩)
theorem viaC_arrays : ViaC (.star G.col_type_array) :=
  .star (P := fun _ => True) (by decide) rfl keepC_array viaC_array (fun _ _ _ => trivial) (fun _ _ h => ⟨trivial, noArr_end h⟩)
    (fitC_of (P := fun _ => True) keepC_array rfl (fun _ _ _ => trivial) (by decide +kernel))
theorem finC_arrays : FinC (.star G.col_type_array) [] := .star (by decide) rfl (by decide +kernel)

/-! ## Types -/

theorem arg_off {w : Str} (h : Off (inL ['(']) w) : Fl G.col_type_arg .compound w :=
  fl_offL (e := G.col_type_arg) (by decide) rfl (asc_str (d := '(') (X := argBody) (by decide)) (by decide +kernel) h
theorem keepC_optArg : KeepC (Off (inL ['('])) (.opt G.col_type_arg) :=
  KeepC.opt (PA := fun _ => True) keepC_arg rfl (fun _ h => ⟨trivial, arg_off h⟩)
theorem finC_optArg : FinC (.opt G.col_type_arg) [] := .opt (by decide) rfl (by decide +kernel)

def untail : PExpr := .seq (.opt G.col_type_arg) (.star G.col_type_array)

theorem keepC_untail : KeepC (fun w => Off (inL ['(']) w ∧ NoArr w) untail :=
  KeepC.seq keepC_optArg keepC_arrays rfl rfl (by decide) (off_start (by decide +kernel)) (.inr fun _ h => h.1) (fun _ h => h.2)
theorem viaC_untail : ViaC untail :=
  .seq keepC_optArg viaC_arg.opt viaC_arrays finC_arrays (by decide) (off_start (by decide +kernel)) (.inr ⟨rfl, .inl rfl⟩)
    (fitC_of keepC_arrays rfl (fun _ _ h => noArr_end h) (by decide +kernel))
theorem finC_untail : FinC untail [] := FinC.seq finC_optArg finC_arrays (.inr (.inl rfl))

theorem keepC_unquoted : KeepC (fun w => Off (inL ['(']) w ∧ NoArr w) G.col_type_unquoted :=
  .rule (by decide) rfl (KeepC.seq (PA := Off (inL [])) (keepC_tok keepT_var.inL) keepC_untail rfl rfl (by decide) (fun _ _ _ => off_nil) (.inr fun _ _ => off_nil) (fun _ h => h))
theorem viaC_unquoted : ViaC G.col_type_unquoted :=
  .rule (by decide) (.seq (PA := Off (inL [])) (keepC_tok keepT_var.inL) (viaC_tok rfl) viaC_untail finC_untail (by decide) (fun _ _ _ => off_nil)
    (.inr ⟨rfl, .inl rfl⟩) (fitC_of keepC_untail rfl (fun _ _ h => ⟨end_off (by decide) h, noArr_end h⟩) (by decide +kernel)))

theorem finC_var : FinC G.var k!"x" := by
  refine ⟨by decide, fun d m hd _ pos => ⟨_, var_run (a := .compound) (by simp) (s := k!"x") ⟨_, [], rfl, rfl, by simp⟩ ?_ pos⟩⟩
  intro c t e; injection e with e _; subst e; exact end_word (end_end2 hd)
theorem finC_spaced : FinC G.spaced_var k!"x" := by
  refine ⟨by decide, fun d m hd _ pos => ⟨_, spaced_var_run (a := .compound) (by simp) (s := k!"x") ⟨_, [], rfl, rfl, .nil⟩ ⟨?_, ?_⟩ pos⟩⟩
  · intro c t e; injection e with e _; subst e; exact end_word (end_end2 hd)
  · intro c t e; injection e with e _; subst e; simp [isEnd] at hd
theorem finC_unquoted : FinC G.col_type_unquoted k!"x" :=
  .rule (by decide) (FinC.seq finC_var finC_untail (.inr (.inl rfl)))

def q1 : PExpr := .seq (.str k!"\"") (.star G.col_type_array)
def q2 : PExpr := .seq (.star G.col_type_array) q1
def q3 : PExpr := .seq (.opt G.col_type_arg) q2
def q4 : PExpr := .seq G.spaced_var q3

theorem keepC_q1 : KeepC NoArr q1 :=
  KeepC.seq (PA := fun _ => True) keepC_str keepC_arrays rfl rfl (by decide) (fun _ _ _ => trivial) (.inr fun _ _ => trivial) (fun _ h => h)
theorem viaC_q1 : ViaC q1 :=
  .seq (PA := fun _ => True) keepC_str (viaC_tok rfl) viaC_arrays finC_arrays (by decide) (fun _ _ _ => trivial) (.inl stop_dq)
    (fitC_of (k := false) keepC_arrays rfl (fun _ _ h => noArr_end h) (by decide +kernel))
theorem finC_q1 : FinC q1 k!"\"" := FinC.seq (finC_str (by decide)) finC_arrays (.inl stop_dq)

theorem keepC_q2 : KeepC NoArr q2 :=
  KeepC.seq keepC_arrays keepC_q1 rfl rfl (by decide) (fun c t h => noArr_of (off_start (by decide +kernel : noS q1 ['['] = true) c t h)) (.inl rfl) (fun _ h => h)
theorem viaC_q2 : ViaC q2 :=
  .seq keepC_arrays viaC_arrays viaC_q1 finC_q1 (by decide) (fun c t h => noArr_of (off_start (by decide +kernel : noS q1 ['['] = true) c t h))
    (.inr ⟨rfl, .inr ⟨_, _, rfl, by decide⟩⟩) (fitC_of keepC_q1 rfl (fun _ _ h => noArr_end h) (by decide +kernel))
theorem finC_q2 : FinC q2 k!"\"" := FinC.seq finC_arrays finC_q1 (.inr (.inr ⟨_, _, rfl, by decide⟩))

theorem keepC_q3 : KeepC NoArr q3 :=
  KeepC.seq keepC_optArg keepC_q2 rfl rfl (by decide) (off_start (by decide +kernel)) (.inl rfl) (fun _ h => h)
theorem viaC_q3 : ViaC q3 :=
  .seq keepC_optArg viaC_arg.opt viaC_q2 finC_q2 (by decide) (off_start (by decide +kernel)) (.inr ⟨rfl, .inr ⟨_, _, rfl, by decide⟩⟩)
    (fitC_of keepC_q2 rfl (fun _ _ h => noArr_end h) (by decide +kernel))
theorem finC_q3 : FinC q3 k!"\"" := FinC.seq finC_optArg finC_q2 (.inr (.inr ⟨_, _, rfl, by decide⟩))

theorem keepC_q4 : KeepC NoArr q4 :=
  KeepC.seq (PA := Off (inL [])) (keepC_tok keepT_spaced.inL) keepC_q3 rfl rfl (by decide) (fun _ _ _ => off_nil) (.inl rfl) (fun _ h => h)
theorem viaC_q4 : ViaC q4 :=
  .seq (PA := Off (inL [])) (keepC_tok keepT_spaced.inL) (viaC_tok rfl) viaC_q3 finC_q3 (by decide) (fun _ _ _ => off_nil)
    (.inr ⟨rfl, .inr ⟨_, _, rfl, by decide⟩⟩) (fitC_of keepC_q3 rfl (fun _ _ h => noArr_end h) (by decide +kernel))
theorem finC_q4 : FinC q4 k!"x\"" := FinC.seq finC_spaced finC_q3 (.inr (.inr ⟨_, _, rfl, by decide⟩))

theorem keepC_quoted : KeepC NoArr G.col_type_quoted :=
  .rule (by decide) rfl (KeepC.seq (b := q4) (PA := fun _ => True) keepC_str keepC_q4 rfl rfl (by decide) (fun _ _ _ => trivial) (.inl rfl) (fun _ h => h))
theorem viaC_quoted : ViaC G.col_type_quoted :=
  .rule (by decide) (.seq (b := q4) (PA := fun _ => True) keepC_str (viaC_tok rfl) viaC_q4 finC_q4 (by decide)
    (fun _ _ _ => trivial) (.inl stop_dq) (fitC_of (k := false) keepC_q4 rfl (fun _ _ h => noArr_end h) (by decide +kernel)))

def ty : PExpr := .alt G.col_type_quoted G.col_type_unquoted

theorem fl_quoted {s c r} (h : Rn G.col_type_unquoted .compound s c r) : ∀ z, Fl G.col_type_quoted .compound (c ++ z) := by
  intro z
  obtain ⟨x, t, rfl, hx⟩ := headC (by decide) h (h.ne rfl)
  refine fl_off (by decide) rfl (by simp) ?_
  intro d u e
  injection e with e _
  subst e
  exact dis_sound (fun c h => (fst_var c h).1) (by decide +kernel : dis G.col_type_quoted G.var = true) x (by
    simpa [G.col_type_unquoted, PExpr.starts, show G.var.nonNull = true from rfl] using hx)

theorem keepC_ty : KeepC (fun w => Off (inL ['(']) w ∧ NoArr w) ty := by
  intro s c r h w hc hw
  rcases alt_rn rfl rfl h with h | ⟨hf, h⟩
  · exact rn_altL (keepC_quoted _ _ _ h w hc hw.2)
  · exact rn_altR (fl_quoted h w) (keepC_unquoted _ _ _ h w hc hw)

theorem viaC_ty : ViaC ty := by
  intro R s u v ht e hu
  cases ht with
  | altL ht =>
    obtain ⟨t, h1, h2, h3⟩ := viaC_quoted s u v ht e hu
    exact ⟨t, h1, h2, fun d m hd hm => ⟨(h3 d m hd hm).1, rn_altL (h3 d m hd hm).2⟩⟩
  | altR hf ht =>
    obtain ⟨t, h1, h2, h3⟩ := viaC_unquoted s u v ht e hu
    refine ⟨t, h1, h2, fun d m hd hm => ⟨(h3 d m hd hm).1, rn_altR ?_ (h3 d m hd hm).2⟩⟩
    have := fl_quoted (h3 d m hd hm).2 (d :: m)
    rwa [List.append_assoc] at this

theorem finC_ty : FinC ty k!"x" :=
  ⟨by decide, fun d m hd hm => rn_altR (fl_quoted (finC_unquoted.2 d m hd hm) (d :: m)) (finC_unquoted.2 d m hd hm)⟩

end Dbml.Vp

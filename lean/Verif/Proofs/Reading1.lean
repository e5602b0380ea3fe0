import Verif.Proofs.Tokens
import Verif.Proofs.Folds
import Verif.Proofs.Walkers3

/-!
# Reading lists, attributes, notes and projects
-/

namespace Dbml
open Syntax Source

/-! ## Folding over pairs that are known -/

theorem foldlM_vals {α β γ σ : Type} {f : σ → Pair → Rs σ} {P : α → Pair → Prop} {er : β → γ} {v : α → γ}
    {g : σ → β → σ} : ∀ (xs : List α), (∀ x ∈ xs, ∀ p, P x p → ∃ b, er b = v x ∧ ∀ s, f s p = .ok (g s b)) →
    ∀ {ps} s, AllP (xs.map P) ps → ∃ bs : List β, bs.map er = xs.map v ∧ List.foldlM f s ps = .ok (bs.foldl g s)
  | [], _, ps, s, h => by cases h; exact ⟨[], rfl, rfl⟩
  | x :: xs, hx, ps, s, h => by
    obtain ⟨p, qs, rfl, hp, hq⟩ := h.cons'
    obtain ⟨b, h1, h2⟩ := hx x (by simp) p hp
    obtain ⟨bs, h3, h4⟩ := foldlM_vals xs (fun y hy => hx y (by simp [hy])) (g s b) hq
    exact ⟨b :: bs, by simp [h1, h3], by simp [h2, h4]⟩

theorem ex_bind {α β : Type} {x : Rs α} {a : α} {k : α → Rs β} {Q : β → Prop} (h : x = .ok a)
    (hk : ∃ b, k a = .ok b ∧ Q b) : ∃ b, (x >>= k) = .ok b ∧ Q b := by
  obtain ⟨b, h1, h2⟩ := hk
  exact ⟨b, by rw [h]; exact h1, h2⟩

theorem ex_fold {α β γ σ : Type} {f : σ → Pair → Rs σ} {P : α → Pair → Prop} {Q : σ → Prop} {s : σ} {ps}
    (er : β → γ) (v : α → γ) (g : σ → β → σ) (xs : List α) (h : AllP (xs.map P) ps)
    (hf : ∀ x ∈ xs, ∀ p, P x p → ∃ b, er b = v x ∧ ∀ s, f s p = .ok (g s b))
    (hq : ∀ bs : List β, bs.map er = xs.map v → Q (bs.foldl g s)) :
    ∃ r, List.foldlM f s ps = .ok r ∧ Q r := by
  obtain ⟨bs, h1, h2⟩ := foldlM_vals xs hf s h
  exact ⟨_, h2, hq bs h1⟩

theorem ex_fold_bind {α β γ σ τ : Type} {f : σ → Pair → Rs σ} {P : α → Pair → Prop} {k : σ → Rs τ}
    {Q : τ → Prop} {s : σ} {ps}
    (er : β → γ) (v : α → γ) (g : σ → β → σ) (xs : List α) (h : AllP (xs.map P) ps)
    (hf : ∀ x ∈ xs, ∀ p, P x p → ∃ b, er b = v x ∧ ∀ s, f s p = .ok (g s b))
    (hq : ∀ bs : List β, bs.map er = xs.map v → ∃ r, k (bs.foldl g s) = .ok r ∧ Q r) :
    ∃ r, (List.foldlM f s ps >>= k) = .ok r ∧ Q r := by
  obtain ⟨bs, h1, h2⟩ := foldlM_vals xs hf s h
  exact ex_bind h2 (hq bs h1)

theorem mapM_vals {α β γ : Type} {f : Pair → Rs β} {P : α → Pair → Prop} {er : β → γ} {v : α → γ} :
    ∀ (xs : List α), (∀ x ∈ xs, ∀ p, P x p → ∃ b, er b = v x ∧ f p = .ok b) →
    ∀ {ps}, AllP (xs.map P) ps → ∃ bs : List β, bs.map er = xs.map v ∧ List.mapM f ps = .ok bs
  | [], _, ps, h => by cases h; exact ⟨[], rfl, rfl⟩
  | x :: xs, hx, ps, h => by
    obtain ⟨p, qs, rfl, hp, hq⟩ := h.cons'
    obtain ⟨b, h1, h2⟩ := hx x (by simp) p hp
    obtain ⟨bs, h3, h4⟩ := mapM_vals xs (fun y hy => hx y (by simp [hy])) hq
    exact ⟨b :: bs, by simp [h1, h3], by simp [h2, h4]⟩

theorem ex_mapM_bind {α β γ τ : Type} {f : Pair → Rs β} {P : α → Pair → Prop} {k : List β → Rs τ}
    {Q : τ → Prop} {ps} (er : β → γ) (v : α → γ) (xs : List α) (h : AllP (xs.map P) ps)
    (hf : ∀ x ∈ xs, ∀ p, P x p → ∃ b, er b = v x ∧ f p = .ok b)
    (hq : ∀ bs : List β, bs.map er = xs.map v → ∃ r, k bs = .ok r ∧ Q r) :
    ∃ r, (List.mapM f ps >>= k) = .ok r ∧ Q r := by
  obtain ⟨bs, h1, h2⟩ := mapM_vals xs hf h
  exact ex_bind h2 (hq bs h1)

/-- A rule whose pair yields a value. -/
theorem Reads.yields {α : Type} {r e x z Ps} {f : Pair → Rs α} {er : α → α} {v : α} (h : Reads e x z Ps)
    (hf : ∀ sp t ks, AllP Ps ks → ∃ a, f (.mk r sp t ks) = .ok a ∧ er a = v) :
    Reads (.rule r .normal e) x z [Yields r f er v] := by
  refine h.rule.mono ?_
  rintro ⟨r', sp, t, ks⟩ ⟨h1, h2⟩
  simp only [Pair.rule_mk] at h1
  subst h1
  exact ⟨rfl, hf sp t ks h2⟩

/-! ## First characters -/

theorem name_hd {n : Name} (hn : n.Ok) (z) : ∃ c, hd (n.tok :: z) = some c ∧ (c.isAlpha = true ∨ c = '"') := by
  cases n with
  | word s => obtain ⟨c, cs, rfl, hc, -⟩ := hn; exact ⟨c, rfl, .inl hc⟩
  | quoted s => exact ⟨_, rfl, .inr rfl⟩

theorem spaced_hd {s : Str} (hs : IsSpacedVar s) {k : Next} (z) :
    ∃ c, hd ({ txt := s, next := k } :: z) = some c ∧ c.isAlpha = true := by
  obtain ⟨c, cs, rfl, hc, -⟩ := hs; exact ⟨c, rfl, hc⟩

theorem var_hd {s : Str} (hs : IsVar s) {k : Next} (z) :
    ∃ c, hd ({ txt := s, next := k } :: z) = some c ∧ c.isAlpha = true := by
  obtain ⟨c, cs, rfl, hc, -⟩ := hs; exact ⟨c, rfl, hc⟩

theorem alpha_ne {c d : Char} (h : c.isAlpha = true) (hd : d.isAlpha = false) : c ≠ d := by
  rintro rfl; simp [h] at hd

theorem alpha_not_space {c : Char} (h : c.isAlpha = true) : ¬ IsSpace c ∧ c ≠ '/' := by
  refine ⟨?_, alpha_ne h (by decide)⟩
  rintro (rfl | rfl | rfl | rfl) <;> revert h <;> decide

theorem alpha_word {c : Char} (h : c.isAlpha = true) : IsWord c := .inl (by simp [Char.isAlphanum, h])

theorem isAlpha_false {c : Char} (h : c.isAlpha = false) : G.isAlpha c = false := by
  cases hh : G.isAlpha c with
  | false => rfl
  | true => have := (isAlpha_iff c).1 hh; simp [h] at this

theorem isAlpha_nat (c : Char) :
    c.isAlpha = true ↔ (65 ≤ c.toNat ∧ c.toNat ≤ 90) ∨ (97 ≤ c.toNat ∧ c.toNat ≤ 122) := by
  simp only [Char.isAlpha, Char.isUpper, Char.isLower, Bool.or_eq_true, Bool.and_eq_true,
    decide_eq_true_eq, ge_iff_le, UInt32.le_iff_toNat_le]
  rfl

theorem isDigit_nat (c : Char) : c.isDigit = true ↔ 48 ≤ c.toNat ∧ c.toNat ≤ 57 := by
  simp only [Char.isDigit, Bool.and_eq_true, decide_eq_true_eq, ge_iff_le, UInt32.le_iff_toNat_le]
  rfl

theorem alpha_not_digit {c : Char} (h : c.isAlpha = true) : c.isDigit = false := by
  cases hd : c.isDigit with
  | false => rfl
  | true => rw [isAlpha_nat] at h; rw [isDigit_nat] at hd; omega

/-! ## Lists -/

theorem Reads.append_nil {e x z Ps} (h : Reads e x z (Ps ++ [])) : Reads e x z Ps := by simpa using h

/-- Reading `x, x, ...`; `F` is what may follow an item. -/
theorem reads_commaSep {α : Type} {item : PExpr} {f : α → List Tok} {P : α → Pair → Prop} {F : List Tok → Prop}
    {z : List Tok} (hz : hd z ≠ some ',') (hFz : F z) (hFc : ∀ y, F (comma :: y)) (x : α) (xs : List α)
    (h : ∀ y ∈ x :: xs, ∀ z, F z → Reads item (f y ++ z) z [P y]) :
    Reads (item ~~ .star (.str k!"," ~~ item)) (commaSep f (x :: xs) ++ z) z ((x :: xs).map P) := by
  have h2 : Reads (.star (.str k!"," ~~ item)) ((xs.flatMap fun y => comma :: f y) ++ z) z (xs.map P) := by
    refine star_items (F := F) (by simp [PExpr.nonNull]) ?_ hFz xs ?_ ?_
    · refine Fails.seq_left ?_
      refine Fails.of_starts rfl rfl ?_
      cases hh : (hd z == some ',') <;> simp_all [PExpr.starts]
    · intro y hy w hw
      have := Reads.seq (reads_str (s := k!",") (k := .any) (z := f y ++ w)) (h y (by simp [hy]) w hw)
      simpa [comma] using this
    · intro y _ w; exact hFc _
  have h1 := h x (by simp) ((xs.flatMap fun y => comma :: f y) ++ z) (by
    cases xs with
    | nil => exact hFz
    | cons y ys => exact hFc _)
  simpa [commaSep] using h1.seq h2

/-- Reading `[x, x, ...]`. -/
theorem reads_brackets {α : Type} {item : PExpr} {f : α → List Tok} {P : α → Pair → Prop} (xs : List α)
    (hw : item.wf = true) (hn : item.nonNull = true) (hs : item.starts (some ']') = false)
    (h : ∀ y ∈ xs, ∀ z, hd z = some ',' ∨ hd z = some ']' → Reads item (f y ++ z) z [P y]) (z : List Tok) :
    Reads (G.bracketed item) (brackets f xs ++ z) z (xs.map P) := by
  have h1 := reads_str (s := k!"[") (k := .any) (z := commaSep f xs ++ (rbrack :: z))
  have h3 := reads_str (s := k!"]") (k := .any) (z := z)
  have h2 : Reads (.opt (item ~~ .star (.str k!"," ~~ item))) (commaSep f xs ++ (rbrack :: z)) (rbrack :: z)
      (xs.map P) := by
    cases xs with
    | nil => exact .opt_none (.seq_left (.of_starts hw hn hs))
    | cons x xs =>
      exact .opt (reads_commaSep (F := fun z => hd z = some ',' ∨ hd z = some ']') (by simp [hd, rbrack])
        (.inr rfl) (fun _ => .inl rfl) x xs h)
  have := h1.seq (h2.seq h3)
  simpa [brackets, lbrack, rbrack, G.bracketed] using this

/-- Reading an optional settings list. -/
theorem reads_optBrackets' {α : Type} {r : Rule} {item : PExpr} {f : α → List Tok} {P : Pair → Prop}
    (o : Option (List α)) (z : List Tok) (hz : o = none → hd z ≠ some '[')
    (h : ∀ xs, o = some xs → Reads (.rule r .normal (G.bracketed item)) (brackets f xs ++ z) z [P]) :
    Reads (.opt (.rule r .normal (G.bracketed item))) (optBrackets f o ++ z) z (o.toList.map fun _ => P) := by
  cases o with
  | none =>
    refine .opt_none (.rule (.seq_left (.of_starts rfl rfl ?_)))
    replace hz := hz rfl
    cases hh : (hd z == some '[') <;> simp_all [PExpr.starts, optBrackets]
  | some xs => exact .opt (h xs rfl)

theorem reads_optBrackets {α : Type} {r : Rule} {item : PExpr} {f : α → List Tok} {P : Pair → Prop}
    (o : Option (List α)) (z : List Tok) (hz : hd z ≠ some '[')
    (h : ∀ xs, o = some xs → Reads (.rule r .normal (G.bracketed item)) (brackets f xs ++ z) z [P]) :
    Reads (.opt (.rule r .normal (G.bracketed item))) (optBrackets f o ++ z) z (o.toList.map fun _ => P) :=
  reads_optBrackets' o z (fun _ => hz) h

/-! ## Keywords -/

theorem reads_kw' {k k' s : Str} {kd : Next} {z} (h : Keyword k' s) (hk : k.map lowerC = k'.map lowerC) :
    Reads (.insens k) ({ txt := s, next := kd } :: z) z [] := reads_kw (by rw [Keyword, hk]; exact h)

theorem lowerC_nat (c : Char) :
    (lowerC c).toNat = if 65 ≤ c.toNat ∧ c.toNat ≤ 90 then c.toNat + 32 else c.toNat := by
  unfold lowerC
  split
  · rename_i h
    have hv : (c.toNat + 32).isValidChar := by left; omega
    rw [Char.ofNat, dif_pos hv]
    rfl
  · rfl

theorem lowerC_alpha {c d : Char} (h : lowerC c = lowerC d) (hd : d.isAlpha = true) : c.isAlpha = true := by
  have h := congrArg Char.toNat h
  rw [lowerC_nat, lowerC_nat] at h
  rw [isAlpha_nat] at hd ⊢
  split at h <;> split at h <;> omega

theorem keyword_var {k s : Str} (h : Keyword k s) (hk : k ≠ []) (ha : ∀ c ∈ k, c.isAlpha = true) : IsVar s := by
  have hs : ∀ c ∈ s, c.isAlpha = true := by
    intro c hc
    have h1 : lowerC c ∈ s.map lowerC := List.mem_map_of_mem hc
    rw [h] at h1
    obtain ⟨d, hd, he⟩ := List.mem_map.1 h1
    exact lowerC_alpha he.symm (ha d hd)
  cases s with
  | nil => simp [Keyword] at h; exact absurd h hk
  | cons c cs => exact ⟨c, cs, rfl, hs c (by simp), fun x hx => alpha_word (hs x (by simp [hx]))⟩

/-- After a prefix of a spaced word: nothing, a word character, or a blank and a word character. -/
theorem spacedTail_suffix {t : Str} (h : SpacedTail t) : ∀ m u, t = m ++ u →
    u = [] ∨ (∃ c v, u = c :: v ∧ IsWord c) ∨ (∃ c v, u = ' ' :: c :: v ∧ IsWord c) := by
  induction h with
  | nil => intro m u e; left; simp at e; exact e.2
  | @word c t hc _ ih =>
    intro m u e
    cases m with
    | nil => exact .inr (.inl ⟨c, t, e.symm, hc⟩)
    | cons x m => injection e with _ e; exact ih m u e
  | @blank c t hc _ ih =>
    intro m u e
    match m, e with
    | [], e => exact .inr (.inr ⟨c, t, e.symm, hc⟩)
    | [x], e => injection e with _ e; exact .inr (.inl ⟨c, t, e.symm, hc⟩)
    | x :: y :: m, e => injection e with _ e; injection e with _ e; exact ih m u e

theorem word_not_space {c : Char} (h : IsWord c) : ¬ IsSpace c ∧ c ≠ '/' := by
  refine ⟨?_, ?_⟩
  · rintro (rfl | rfl | rfl | rfl) <;> simp [IsWord] at h
  · rintro rfl; simp [IsWord] at h

theorem spaced_suffix {t : Str} (h : IsSpacedVar t) : ∀ m u, t = m ++ u → m ≠ [] →
    u = [] ∨ (∃ c v, u = c :: v ∧ IsWord c) ∨ (∃ c v, u = ' ' :: c :: v ∧ IsWord c) := by
  obtain ⟨c, cs, rfl, hc, hw⟩ := h
  intro m u e hm
  cases m with
  | nil => exact absurd rfl hm
  | cons x m => injection e with _ e; exact spacedTail_suffix hw m u e

theorem var_spaced {t : Str} (h : IsVar t) : IsSpacedVar t := by
  obtain ⟨c, cs, rfl, hc, hw⟩ := h
  refine ⟨c, cs, rfl, hc, ?_⟩
  clear hc
  induction cs with
  | nil => exact .nil
  | cons x xs ih => exact .word (hw x (by simp)) (ih fun y hy => hw y (by simp [hy]))

/-- Text matched by a keyword expression. -/
structure KwExpr (e : PExpr) (K : Str → Prop) : Prop where
  ne : ∀ m, K m → m ≠ []
  word : ∀ m, K m → ∀ c ∈ m, IsWord c
  dec : ∀ pos s, (∃ m r, s = m ++ r ∧ K m ∧ run G.skip e .nonAtomic pos s = .ok m r []) ∨
    run G.skip e .nonAtomic pos s = .fail

theorem kwExpr_insens {k k' : Str} (hk : k.map lowerC = k'.map lowerC) (hne : k' ≠ [])
    (ha : ∀ c ∈ k', c.isAlpha = true) : KwExpr (.insens k) (Keyword k') := by
  constructor
  · rintro m h rfl
    simp [Keyword] at h
    exact hne h
  · intro m h
    obtain ⟨c, cs, rfl, hc, hw⟩ := keyword_var h hne ha
    intro x hx
    rcases List.mem_cons.1 hx with rfl | hx
    · exact alpha_word hc
    · exact hw x hx
  · intro pos s
    cases h : run G.skip (.insens k) .nonAtomic pos s with
    | diverge => simp [run] at h; split at h <;> simp at h
    | fail => exact .inr rfl
    | ok m r ps =>
      left
      obtain ⟨h1, h2⟩ := run_sound gskip_sound _ _ _ _ _ _ _ h
      obtain ⟨h3, rfl⟩ := insensP (p := ⟨0, m⟩) (a := .nonAtomic) (rest := r) h2
      exact ⟨m, r, h1, by rw [Keyword, ← hk]; exact h3, rfl⟩

theorem kwExpr_str {k : Str} (hne : k ≠ []) (ha : ∀ c ∈ k, IsWord c) : KwExpr (.str k) (· = k) := by
  refine ⟨by rintro m rfl; exact hne, by rintro m rfl; exact ha, ?_⟩
  intro pos s
  by_cases h : k <+: s
  · obtain ⟨r, rfl⟩ := h
    exact .inl ⟨k, r, rfl, rfl, str_run⟩
  · exact .inr (str_fail_iff.2 h)

/-- A keyword followed by `e` on a name: either the name is the keyword, and `e` fails after it, or the name
goes on after the keyword and `e` cannot start with a word character. -/
theorem fails_kw {kw e : PExpr} {K : Str → Prop} {t : Tok} {y : List Tok} (hk : KwExpr kw K)
    (ht : IsSpacedVar t.txt) (hx : ∀ r, t.next r → NotW r) (hw : e.wf = true) (hn : e.nonNull = true)
    (hs : ∀ c, IsWord c → e.starts (some c) = false) (he : K t.txt → Fails e y) : Fails (kw ~~ e) (t :: y) := by
  intro pos s h
  obtain ⟨r, rfl, ha, ho⟩ := h.cons
  rcases (hk.dec pos (t.txt ++ r)).symm with hf | ⟨m, u, hmu, hm, hrun⟩
  · exact seq_fail_left hf
  have hend : NotW r := hx r ha.1
  -- the keyword ends within the name
  obtain ⟨v, hv⟩ : ∃ v, t.txt = m ++ v := by
    rcases List.append_eq_append_iff.1 hmu with ⟨v, h1, h2⟩ | ⟨v, h1, h2⟩
    · cases v with
      | nil => exact ⟨[], by simpa using h1.symm⟩
      | cons c v =>
        exact absurd (hk.word m hm c (by simp [h1])) (hend c (v ++ u) (by simp [h2]))
    · exact ⟨v, h1⟩
  have hu : u = v ++ r := by rw [hv] at hmu; simpa using hmu.symm
  subst hu
  have fin : ∀ w c x, v ++ r = w ++ (c :: x) → Blank w → IsWord c →
      run G.skip (kw ~~ e) .nonAtomic pos (t.txt ++ r) = .fail := by
    intro w c x h1 h2 h3
    have hsol := solid_cons (s := x) (word_not_space h3).1 (word_not_space h3).2
    have h4 := fail_of_starts hw hn (a := .nonAtomic) (pos := pos + blen m + blen w) (inp := c :: x)
      (hs c h3) (fun _ => hsol)
    simp only [run, hrun, seqRes, skipIf, h1, skip_blank h2 hsol, h4]
  rcases spaced_suffix ht m v hv (hk.ne m hm) with rfl | ⟨c, w, rfl, hc⟩ | ⟨c, w, rfl, hc⟩
  · obtain ⟨w, r2, e2, l2, -⟩ := (after_lead ho ha).skip
    have := he (by rw [hv]; simpa using hm) (pos + blen m + blen w) _ l2
    simp only [List.nil_append] at hrun
    simp only [run, hrun, seqRes, skipIf, e2, this]
  · exact fin [] c (w ++ r) rfl .nil hc
  · exact fin [' '] c (w ++ r) rfl (.space (by simp [IsSpace]) .nil) hc

end Dbml

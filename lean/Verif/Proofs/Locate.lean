import Verif.Proofs.Invert5
import Verif.Props.Language

/-!
# Where the declarations of a text stand
-/

namespace Dbml
open Syntax Source Spec Props

/-- A token that is all of `r`. -/
def endTok (r : Str) : Tok := { txt := r, next := (· = []) }

theorem endTok_wr {r : Str} (h : r ≠ []) : Wr [endTok r] r :=
  ⟨⟨[], [], by simp [endTok], .nil, rfl, .inl .nil⟩, by simpa [endTok] using h⟩

theorem written_endTok {r : Str} : ∀ {ts : List Tok} {s : Str}, (∀ t ∈ ts, Breaks t) → Written (ts ++ [endTok r]) s →
    ∃ a, s = a ++ r ∧ Written ts a
  | [], s, _, ⟨w, r', e, hw, hn, _⟩ => by
    cases (show r' = [] from hn)
    exact ⟨w, by simpa [endTok] using e, .inl hw⟩
  | t :: ts, s, hb, ⟨w, r', e, hw, hn, h⟩ => by
    obtain ⟨a, rfl, ha⟩ := written_endTok (fun x hx => hb x (by simp [hx])) h
    exact ⟨w ++ (t.txt ++ a), by simp [e], w, a, rfl, hw, (hb t (by simp)).2.2.1 _ _ hn, ha⟩

/-- The tokens laid out before `r` are a layout of the text before `r`. -/
theorem Lay.cut {ts : List Tok} {a r : Str} (hb : ∀ t ∈ ts, Breaks t) (h : Lay ts (a ++ r) r) :
    Wr ts a := by
  by_cases hr : r = []
  · subst hr
    have := h [] ⟨.inl .nil, by simp⟩
    simpa using this
  · obtain ⟨h1, h2⟩ := h _ (endTok_wr hr)
    obtain ⟨a', e, ha⟩ := written_endTok hb h1
    cases List.append_cancel_right e
    exact ⟨ha, fun t ht => h2 t (by simp [ht])⟩

theorem Lay.trans {t1 t2 s r1 r} (h1 : Lay t1 s r1) (h2 : Lay t2 r1 r) : Lay (t1 ++ t2) s r := by
  intro zs hz
  simpa using h1 _ (h2 zs hz)

theorem Lay.blank {ts w s r} (hw : Blank w) (h : Lay ts s r) : Lay ts (w ++ s) r :=
  fun zs hz => ⟨written_prepend hw (h zs hz).1, (h zs hz).2⟩

/-- The items of a repetition, where they stand. -/
inductive Spread (K : Piece → Str → Pair → Prop) : Nat → Str → List Pair → Str → Prop
  | nil {pos s} : Spread K pos s [] s
  | cons {pos w c r1 p ps r} : Blank w → K ⟨pos + blen w, c⟩ r1 p → Spread K (pos + blen w + blen c) r1 ps r →
      Spread K pos (w ++ (c ++ r1)) (p :: ps) r

def Places (e : PExpr) (W : Pair → Prop) (K : Piece → Str → Pair → Prop) : Prop :=
  ∀ pos s c r ps, run G.skip e .nonAtomic pos s = .ok c r ps →
    ∃ p, ps = [p] ∧ (W p → c ≠ [] ∧ K ⟨pos, c⟩ r p)

theorem loop_spread {e W K} (h : Places e W K) : ∀ fuel pos s c r ps,
    repLoop (stepOf G.skip e .nonAtomic) fuel pos s = .ok c r ps → (∀ p ∈ ps, W p) → Spread K pos s ps r := by
  intro fuel
  induction fuel with
  | zero => intro pos s c r ps hr; simp [repLoop] at hr
  | succ n ih =>
    intro pos s c r ps hr hw
    simp only [repLoop] at hr
    split at hr
    · injection hr with e1 e2 e3
      subst e1 e2 e3
      exact .nil
    · contradiction
    · contradiction
    · rename_i c1 r1 p1 _ hs
      split at hr <;> try contradiction
      rename_i c2 r2 p2 hl
      injection hr with e1 e2 e3
      subst e1 e2 e3
      obtain ⟨c1', r1', p1', t, r2', q, c2', p2', h1, h2, h3, h4, h5⟩ := seqRes_ok hs
      injection h1 with e1 e2 e3
      subst e1 e2 e3
      obtain ⟨e2, hg⟩ := skip_exact _ _ _ _ h2
      obtain ⟨p, hp, hx⟩ := h _ _ _ _ _ h3
      subst hp
      simp only [List.nil_append] at h5
      subst h5
      obtain ⟨hne, hk⟩ := hx (hw p (by simp))
      have hs' := ih _ _ _ _ _ hl (fun p hp => hw p (by simp [hp]))
      have e3 := run_split h3
      subst e2
      subst e3
      have hb : Blank t := hg.blank (by simp [hne])
      have : Spread K pos (t ++ (c2' ++ r1)) (p :: p2) r2 := by
        refine .cons hb (by simpa [blen] using hk) ?_
        have e : pos + blen c1 = pos + blen t + blen c2' := by
          rw [h4]; simp [blen_append]; omega
        rw [← e]; exact hs'
      simpa using this

theorem star_spread {e W K} (h : Places e W K) {pos s c r ps}
    (hr : run G.skip (.star e) .nonAtomic pos s = .ok c r ps) (hw : ∀ p ∈ ps, W p) : Spread K pos s ps r := by
  simp only [run] at hr
  split at hr
  · injection hr with e1 e2 e3
    subst e1 e2 e3
    exact .nil
  · contradiction
  · rename_i c1 r1 p1 h1
    split at hr <;> try contradiction
    rename_i c2 r2 p2 hl
    injection hr with e1 e2 e3
    subst e1 e2 e3
    obtain ⟨p, rfl, hx⟩ := h _ _ _ _ _ h1
    obtain ⟨hne, hk⟩ := hx (hw p (by simp))
    have hs' := loop_spread h _ _ _ _ _ _ hl (fun p hp => hw p (by simp [hp]))
    have e3 := run_split h1
    subst e3
    have : Spread K pos ([] ++ (c1 ++ r1)) (p :: p2) r2 := .cons .nil (by simpa [blen] using hk) (by simpa [blen] using hs')
    simpa using this

/-! ## Top-level declarations -/

theorem block_toks_ne (x : Block) : x.toks ≠ [] := by
  cases x with
  | note n => cases n <;> simp [Block.toks, Source.Note.toks]
  | ref n => obtain ⟨_, _, _ | _, _⟩ := n <;> simp [Block.toks, Source.Ref.toks]
  | _ => simp [Block.toks, Source.Project.toks, Source.Table.toks, Source.Enum.toks, Source.Group.toks]

/-- What is known of a declaration read at a piece, with `r` following. -/
def TopAt (q : Piece) (r : Str) (p : Pair) : Prop :=
  BlockN q p ∧ ∃ x : Block, x.Ok ∧ Lay x.toks (q.txt ++ r) r

theorem top_places : Places G.top_decl BlockAcc TopAt := by
  intro pos s c r ps h
  obtain ⟨p, rfl, hx⟩ := top_lay _ _ _ _ _ h
  refine ⟨p, rfl, fun hw => ?_⟩
  obtain ⟨x, hok, hl⟩ := hx hw
  obtain ⟨hi, hm⟩ := run_sound skip_sound _ _ _ _ _ _ _ h
  obtain ⟨p', e, hn⟩ := top_emits _ _ _ _ hm
  cases e
  subst hi
  refine ⟨?_, hn, x, hok, hl⟩
  rintro rfl
  have := Lay.cut (a := []) (breaks_block x) hl
  obtain ⟨h1, h2⟩ := this
  cases ht : x.toks with
  | nil => exact block_toks_ne x ht
  | cons t ts =>
    rw [ht] at h1 h2
    obtain ⟨w, r', e, -⟩ := h1
    have := h2 t (by simp)
    simp at e
    exact this e.2.1

/-- The walker of a declaration. -/
def walkTop (p : Pair) : Rs TopLevelBlock :=
  match p.rule with
  | .project_decl => (parseProjectDecl p).bind fun b => .ok (.project b)
  | .table_decl => (parseTableDecl p).bind fun b => .ok (.table b)
  | .enum_decl => (parseEnumDecl p).bind fun b => .ok (.enum b)
  | .ref_decl => (parseRefDecl p).bind fun b => .ok (.ref b)
  | .note_decl => (parseNoteDecl p).bind fun b => .ok (.note b)
  | .table_group_decl => (parseTableGroupDecl p).bind fun b => .ok (.tableGroup b)
  | _ => throwRules [.project_decl, .table_decl, .enum_decl, .ref_decl, .table_group_decl] p

theorem blockD_of {q p b} (h : BlockN q p) (hw : walkTop p = .ok b) : BlockD q b := by
  rcases h with ⟨hr, -, -, hg⟩ | ⟨hr, -, -, hg⟩ | ⟨hr, -, -, hg⟩ | ⟨hr, -, -, hg⟩ | ⟨hr, -, -, hg⟩ | ⟨hr, -, -, hg⟩ <;>
  · simp only [walkTop, hr] at hw
    obtain ⟨y, hy, e⟩ := Rs.bind_ok.1 hw
    cases e
    rw [hy] at hg
    exact hg

theorem isTop_of {q p} (h : BlockN q p) : p.rule = .project_decl ∨ p.rule = .table_decl ∨ p.rule = .enum_decl ∨
    p.rule = .ref_decl ∨ p.rule = .table_group_decl ∨ p.rule = .note_decl := by
  rcases h with ⟨hr, -⟩ | ⟨hr, -⟩ | ⟨hr, -⟩ | ⟨hr, -⟩ | ⟨hr, -⟩ | ⟨hr, -⟩ <;> simp [hr]

/-- Items and the blocks made of them. -/
inductive Spots : Nat → Str → List TopLevelBlock → List Block → Str → Prop
  | nil {pos s} : Spots pos s [] [] s
  | cons {pos w c r1 b bs x xs r} : Blank w → BlockD ⟨pos + blen w, c⟩ b → x.Ok → Lay x.toks (c ++ r1) r1 →
      Spots (pos + blen w + blen c) r1 bs xs r → Spots pos (w ++ (c ++ r1)) (b :: bs) (x :: xs) r

theorem spots_of {pos s ps r} (h : Spread TopAt pos s ps r) : ∀ {t : List Pair} (sp : Span) (i : Str) {bs0 sb},
    (∀ p ∈ t, p.rule = .EOI) →
    (ps ++ t).foldlM (m := Rs) (init := ({ span_range := sp, input := i, blocks := bs0 } : SchemaBlock)) (fun acc p1 =>
      match p1.rule with
      | .project_decl => do
        let b ← parseProjectDecl p1
        return { acc with blocks := acc.blocks ++ [.project b] }
      | .table_decl => do
        let b ← parseTableDecl p1
        return { acc with blocks := acc.blocks ++ [.table b] }
      | .enum_decl => do
        let b ← parseEnumDecl p1
        return { acc with blocks := acc.blocks ++ [.enum b] }
      | .ref_decl => do
        let b ← parseRefDecl p1
        return { acc with blocks := acc.blocks ++ [.ref b] }
      | .note_decl => do
        let b ← parseNoteDecl p1
        return { acc with blocks := acc.blocks ++ [.note b] }
      | .table_group_decl => do
        let b ← parseTableGroupDecl p1
        return { acc with blocks := acc.blocks ++ [.tableGroup b] }
      | .EOI => .ok acc
      | _ => throwRules [.project_decl, .table_decl, .enum_decl, .ref_decl, .table_group_decl] p1) = .ok sb →
    ∃ bs xs, sb.blocks = bs0 ++ bs ∧ Spots pos s bs xs r := by
  induction h with
  | nil =>
    intro t sp i bs0 sb ht hf
    refine ⟨[], [], ?_, .nil⟩
    induction t with
    | nil => cases hf; simp
    | cons p t ih =>
      rw [List.nil_append, List.foldlM_cons] at hf
      obtain ⟨a, h1, h2⟩ := Rs.bind_eq_ok.1 hf
      simp only [ht p (by simp)] at h1
      cases h1
      exact ih (fun p hp => ht p (by simp [hp])) h2
  | @cons pos w c r1 p ps r hw hk _ ih =>
    intro t sp i bs0 sb ht hf
    rw [List.cons_append, List.foldlM_cons] at hf
    obtain ⟨a, h1, h2⟩ := Rs.bind_eq_ok.1 hf
    obtain ⟨hn, x, hx, hl⟩ := hk
    obtain ⟨b, hb, ha⟩ : ∃ b, walkTop p = .ok b ∧
        a = ({ span_range := sp, input := i, blocks := bs0 ++ [b] } : SchemaBlock) := by
      rcases isTop_of hn with hr | hr | hr | hr | hr | hr <;>
      · simp only [hr] at h1
        obtain ⟨y, hy, e⟩ := Rs.bind_eq_ok.1 h1
        cases e
        exact ⟨_, by simp only [walkTop, hr, hy, Rs.ok_bind], rfl⟩
    subst ha
    obtain ⟨bs, xs, e, hs⟩ := ih sp i ht h2
    exact ⟨b :: bs, x :: xs, by simp [e], .cons hw (blockD_of hn hb) hx hl hs⟩

theorem spots_lay {pos s bs xs r} (h : Spots pos s bs xs r) :
    Lay (Doc.toks xs) s r ∧ Doc.Ok xs := by
  induction h with
  | nil => exact ⟨.nil, by intro b hb; simp at hb⟩
  | cons hw _ hx hl _ ih =>
    refine ⟨?_, ?_⟩
    · have := Lay.blank hw (hl.trans ih.1)
      simpa [Doc.toks] using this
    · intro y hy
      rcases List.mem_cons.1 hy with rfl | hy
      · exact hx
      · exact ih.2 y hy

/-- One declaration among the others. -/
theorem spots_split {pos s bs xs r} (h : Spots pos s bs xs r) : ∀ {bs1 b bs2}, bs = bs1 ++ b :: bs2 →
    ∃ xs1 x xs2 a c r1, xs = xs1 ++ x :: xs2 ∧ xs1.length = bs1.length ∧ s = a ++ (c ++ r1) ∧
      BlockD ⟨pos + blen a, c⟩ b ∧
      Lay (Doc.toks xs1) s (c ++ r1) ∧ Lay x.toks (c ++ r1) r1 ∧ Spots (pos + blen a + blen c) r1 bs2 xs2 r := by
  induction h with
  | nil => intro bs1 b bs2 e; simp at e
  | @cons pos w c r1 b' bs x xs r hw hb hx hl hs ih =>
    intro bs1 b bs2 e
    cases bs1 with
    | nil =>
      simp only [List.nil_append, List.cons.injEq] at e
      obtain ⟨rfl, rfl⟩ := e
      exact ⟨[], x, xs, w, c, r1, rfl, rfl, rfl, hb, Lay.blank hw .nil, hl, hs⟩
    | cons b1 bs1 =>
      simp only [List.cons_append, List.cons.injEq] at e
      obtain ⟨rfl, rfl⟩ := e
      obtain ⟨xs1, x', xs2, a, c', r1', e1, e2, e3, h1, h2, h3, h4⟩ := ih rfl
      subst e1 e3
      refine ⟨x :: xs1, x', xs2, w ++ (c ++ a), c', r1', rfl, by simp [e2], by simp, ?_, ?_, h3, ?_⟩
      · simpa [blen_append, Nat.add_assoc] using h1
      · have := Lay.blank hw (hl.trans h2)
        simpa [Doc.toks] using this
      · simpa [blen_append, Nat.add_assoc] using h4

theorem spots_empty {pos s bs xs r} (h : Spots pos s bs xs r) (hs : s = []) : bs = [] ∧ xs = [] := by
  cases h with
  | nil => exact ⟨rfl, rfl⟩
  | cons hw hbd hx hl hs' =>
    exfalso
    simp at hs
    obtain ⟨rfl, rfl, rfl⟩ := hs
    rename_i x _
    have h6 := Lay.cut (a := []) (breaks_block x) hl
    cases ht : x.toks with
    | nil => exact block_toks_ne x ht
    | cons t ts =>
      rw [ht] at h6
      obtain ⟨⟨w, r', e, -⟩, h7⟩ := h6
      have := h7 t (by simp)
      simp at e
      exact this e.2.1

/-- The declarations of an accepted text. -/
theorem spots_read {txt : Str} {sb : SchemaBlock} (h : parseDbmlUnchecked txt = .ok sb) :
    ∃ w xs r, Blank w ∧ (∃ s, txt = w ++ s ∧ Spots (blen w) s sb.blocks xs r) ∧ Wr [] r := by
  unfold parseDbmlUnchecked pestParse at h
  split at h <;> try contradiction
  rename_i c r pairs hp
  obtain ⟨kids, sp, rfl, hb⟩ := rule_ok hp rfl
  have hx : parseSchema (.mk .schema sp c kids) txt = .ok sb := h
  obtain ⟨c1, r1, p1, t, r2, c2, p2, h1, e, hg, h2, -, rfl⟩ := seq_ok hb
  have e1 : r1 = txt ∧ c1 = [] ∧ p1 = [] := by
    simp [run] at h1
    simp [h1]
  obtain ⟨rfl, rfl, rfl⟩ := e1
  obtain ⟨c3, r3, p3, pos'', r4, c4, p4, h3, hg', h4, rfl⟩ := seq_ok' h2
  have e4 : r4 = [] ∧ ∀ p ∈ p4, p.rule = .EOI := by
    cases r4 with
    | nil => simp [run] at h4; obtain ⟨-, -, rfl⟩ := h4; simp
    | cons x xs => simp [run] at h4
  obtain ⟨rfl, hp4⟩ := e4
  have hacc : ∀ p ∈ p3, BlockAcc p := by
    intro q hq
    obtain ⟨a, a', ha⟩ := foldlM_steps hx q (by simp [hq])
    refine ⟨?_, ?_, ?_, ?_, ?_⟩ <;> intro hqr <;> simp only [hqr] at ha <;>
      (obtain ⟨y, hy, -⟩ := Rs.bind_eq_ok.1 ha; exact ⟨y, hy⟩)
  have hs := star_spread top_places h3 hacc
  obtain ⟨bs, xs, e2, h5⟩ := spots_of hs (t := p4) sp r1 (bs0 := []) (sb := sb) hp4 hx
  rw [List.nil_append] at e2
  subst e2
  have hnil : Wr [] ([] : Str) := ⟨.inl .nil, by simp⟩
  have hr3 := hg'.wr hnil
  by_cases hr2 : r2 = []
  · subst hr2
    rcases hg with ⟨hbl, -⟩ | ⟨-, hbl⟩
    · exact ⟨t, xs, r3, hbl, ⟨[], e, by simpa [blen] using h5⟩, hr3⟩
    · have hsb := spots_empty h5 rfl
      rw [hsb.1]
      refine ⟨[], [], r1, .nil, ⟨r1, rfl, .nil⟩, ?_, by simp⟩
      subst e
      rw [List.append_nil]; exact hbl
  · exact ⟨t, xs, r3, hg.blank hr2, ⟨r2, e, by simpa [blen] using h5⟩, hr3⟩

end Dbml

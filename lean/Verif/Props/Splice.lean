import Verif.Proofs.Locate
import Verif.Proofs.Slices
import Verif.Props.Editing
import Verif.Spec.Splice
import Verif.Proofs.Holes4

/-!
# C73: declarations can be edited by their spans

The recorded span of a top-level declaration is the exact piece of the text that declares it: the piece, the text
before it and the text after it can each be read on their own, and the piece can be taken out of the text or replaced.
-/

namespace Dbml.Props

open Spec Source Syntax

variable {s su : SchemaBlock} {txt u : Str} {bs1 bs2 : List TopLevelBlock} {b : TopLevelBlock}

/-- The `span_range` of a top-level block. -/
def spanOf : TopLevelBlock → Span
  | .project b => b.span_range
  | .table b => b.span_range
  | .tableGroup b => b.span_range
  | .note b => b.span_range
  | .ref b => b.span_range
  | .enum b => b.span_range

/-- A ref: its span is that of its statement, without the keyword and the name. -/
def isRef : TopLevelBlock → Bool
  | .ref _ => true
  | _ => false

theorem span_of_blockD {q : Piece} (h : BlockD q b) (hr : isRef b = false) : spanOf b = q.span := by
  cases b with
  | project b => obtain ⟨_, _, _, _, _, _, _, _, h, -⟩ := h; exact h
  | table b =>
    obtain ⟨_, _, _, _, _, _, h⟩ := h
    obtain ⟨-, -, -, -, -, -, -, h, -⟩ := h
    exact h
  | tableGroup b =>
    obtain ⟨_, _, _, _, _, h⟩ := h
    obtain ⟨-, -, -, -, -, h, -⟩ := h
    exact h
  | note b => exact h.1
  | ref b => cases hr
  | enum b => obtain ⟨_, _, _, _, _, _, _, _, h⟩ := h; exact h

theorem refStmt_span {q : Piece} {r : RefBlock} (h : RefStmtD q r) : r.span_range = q.span := by
  obtain ⟨_, _, _, _, _, _, _, _, _, h⟩ := h
  exact h

theorem span_in_blockD {q : Piece} (h : BlockD q b) :
    q.pos ≤ (spanOf b).start ∧ (spanOf b).stop ≤ q.pos + blen q.txt := by
  by_cases hr : isRef b = false
  · rw [span_of_blockD h hr]
    exact ⟨Nat.le_refl _, Nat.le_refl _⟩
  · cases b with
    | ref r =>
      have key : ∀ stmt : Piece, Sub stmt q → RefStmtD stmt r →
          q.pos ≤ (spanOf (.ref r)).start ∧ (spanOf (.ref r)).stop ≤ q.pos + blen q.txt := by
        intro stmt hs hd
        have := sub_bounds hs
        have e : spanOf (.ref r) = stmt.span := refStmt_span hd
        rw [e]
        exact this
      rcases h with ⟨_, _, _, stmt, _, hp, -, -, -, -, hd⟩ | ⟨_, _, _, stmt, hp, -, -, -, hd⟩
      · exact key stmt (parts_sub hp _ (by simp)) hd
      · exact key stmt (parts_sub hp _ (by simp)) hd
    | _ => simp [isRef] at hr

/-- **C73.** Every declaration of an accepted text stands at a piece of the text (`BlockD`, `Spec/Syntax.lean`). The
piece alone, the text before it and the text after it are accepted, and give the declaration, those before it and those
after it. -/
theorem C73_stands (h : parseDbmlUnchecked txt = .ok s) (hs : s.blocks = bs1 ++ b :: bs2) :
    ∃ t1 t2 t3 s1 s2 s3, txt = t1 ++ (t2 ++ t3) ∧ BlockD ⟨blen t1, t2⟩ b ∧ parseDbmlUnchecked t1 = .ok s1 ∧
      parseDbmlUnchecked t2 = .ok s2 ∧ parseDbmlUnchecked t3 = .ok s3 ∧
      s1.blocks.map (·.mapSpan noPos) = bs1.map (·.mapSpan noPos) ∧
      s2.blocks.map (·.mapSpan noPos) = [b.mapSpan noPos] ∧
      s3.blocks.map (·.mapSpan noPos) = bs2.map (·.mapSpan noPos) := by
  obtain ⟨w, xs, r, hw, ⟨t, e, hsp⟩, hr⟩ := spots_read h
  subst e
  obtain ⟨hl, hok⟩ := spots_lay hsp
  have hwr : Written (Doc.toks xs) (w ++ t) := by
    have := (hl.blank hw [] hr).1
    simpa using this
  obtain ⟨s', p', ha, -⟩ := C44_written_is_read xs hok _ hwr
  rw [h] at p'
  cases p'
  obtain ⟨xs1, x, xs2, a, c, r1, e1, e2, e3, hb, l1, l2, l3⟩ := spots_split hsp hs
  subst e1 e3
  rw [hs] at ha
  have ha' : bs1.map (·.mapSpan noPos) ++ b.mapSpan noPos :: bs2.map (·.mapSpan noPos) =
      Doc.ast xs1 ++ x.ast :: Doc.ast xs2 := by simpa [Doc.ast] using ha
  obtain ⟨f1, f2⟩ := List.append_inj ha' (by simp [Doc.ast, e2])
  obtain ⟨f2, f3⟩ := List.cons.inj f2
  have hok1 : Doc.Ok xs1 := fun y hy => hok y (by simp [hy])
  have hok2 : Doc.Ok [x] := fun y hy => hok y (by simp at hy; simp [hy])
  have hok3 : Doc.Ok xs2 := fun y hy => hok y (by simp [hy])
  have w1 : Written (Doc.toks xs1) (w ++ a) := by
    have := l1.blank hw
    rw [← List.append_assoc] at this
    exact (this.cut (breaks_doc xs1)).1
  have w2 : Written (Doc.toks [x]) c := by
    have := (l2.cut (breaks_block x)).1
    simpa [Doc.toks] using this
  have w3 : Written (Doc.toks xs2) r1 := by
    have := ((spots_lay l3).1 [] hr).1
    simpa using this
  obtain ⟨s1, p1, a1, -⟩ := C44_written_is_read _ hok1 _ w1
  obtain ⟨s2, p2, a2, -⟩ := C44_written_is_read _ hok2 _ w2
  obtain ⟨s3, p3, a3, -⟩ := C44_written_is_read _ hok3 _ w3
  refine ⟨w ++ a, c, r1, s1, s2, s3, by simp, ?_, p1, p2, p3, a1.trans f1.symm, ?_, a3.trans f3.symm⟩
  · rw [blen_append]; exact hb
  · rw [a2, f2]; rfl

/-- **C73.** The `span_range` of a declaration lies within that piece, and is the whole piece unless the declaration is
a ref. -/
theorem C73_span {q : Piece} (h : BlockD q b) :
    (q.pos ≤ (spanOf b).start ∧ (spanOf b).stop ≤ q.pos + blen q.txt) ∧ (isRef b = false → spanOf b = q.span) :=
  ⟨span_in_blockD h, span_of_blockD h⟩

theorem stands_at (h : parseDbmlUnchecked txt = .ok s) (hs : s.blocks = bs1 ++ b :: bs2) (hr : isRef b = false) :
    txt = before txt (spanOf b) ++ (slice txt (spanOf b) ++ after txt (spanOf b)) ∧ ∃ s1 s2 s3,
      parseDbmlUnchecked (before txt (spanOf b)) = .ok s1 ∧ parseDbmlUnchecked (slice txt (spanOf b)) = .ok s2 ∧
      parseDbmlUnchecked (after txt (spanOf b)) = .ok s3 ∧
      s1.blocks.map (·.mapSpan noPos) = bs1.map (·.mapSpan noPos) ∧
      s2.blocks.map (·.mapSpan noPos) = [b.mapSpan noPos] ∧
      s3.blocks.map (·.mapSpan noPos) = bs2.map (·.mapSpan noPos) := by
  obtain ⟨t1, t2, t3, s1, s2, s3, rfl, hb, p1, p2, p3, a⟩ := C73_stands h hs
  have e := span_of_blockD hb hr
  have h1 : before (t1 ++ (t2 ++ t3)) (spanOf b) = t1 := by
    rw [e]; exact takeBytes_append _ _
  have h2 : slice (t1 ++ (t2 ++ t3)) (spanOf b) = t2 := by
    rw [e]; exact IsSlice.eq ⟨t1, t3, rfl, rfl, rfl⟩
  have h3 : after (t1 ++ (t2 ++ t3)) (spanOf b) = t3 := by
    rw [e, ← List.append_assoc]
    show dropBytes _ (blen t1 + blen t2) = t3
    rw [← blen_append]
    exact dropBytes_append _ _
  rw [h1, h2, h3]
  exact ⟨rfl, s1, s2, s3, p1, p2, p3, a⟩

/-- **C73.** The text at the span of a declaration that is not a ref, read alone, gives that declaration. -/
theorem C73_alone (h : parseDbmlUnchecked txt = .ok s) (hb : b ∈ s.blocks) (hr : isRef b = false) :
    ∃ s', parseDbmlUnchecked (slice txt (spanOf b)) = .ok s' ∧
      s'.blocks.map (·.mapSpan noPos) = [b.mapSpan noPos] := by
  obtain ⟨bs1, bs2, e⟩ := List.append_of_mem hb
  obtain ⟨-, s1, s2, s3, -, p, -, -, a, -⟩ := stands_at h e hr
  exact ⟨s2, p, a⟩

/-- **C73.** A text is cut at the span of a declaration into three accepted texts. -/
theorem C73_cut (h : parseDbmlUnchecked txt = .ok s) (hs : s.blocks = bs1 ++ b :: bs2) (hr : isRef b = false) :
    txt = before txt (spanOf b) ++ (slice txt (spanOf b) ++ after txt (spanOf b)) ∧ ∃ s1 s3,
      parseDbmlUnchecked (before txt (spanOf b)) = .ok s1 ∧ parseDbmlUnchecked (after txt (spanOf b)) = .ok s3 ∧
      s1.blocks.map (·.mapSpan noPos) = bs1.map (·.mapSpan noPos) ∧
      s3.blocks.map (·.mapSpan noPos) = bs2.map (·.mapSpan noPos) := by
  obtain ⟨e, s1, s2, s3, p1, -, p3, a1, -, a3⟩ := stands_at h hs hr
  exact ⟨e, s1, s3, p1, p3, a1, a3⟩

theorem block_editable (h : parseDbmlUnchecked txt = .ok s) (hs : s.blocks = bs1 ++ b :: bs2) (hr : isRef b = false) :
    Editable Block.Ok Block.toks Block.ast txt (spanOf b) (b.mapSpan noPos)
      (fun bs => bs1.map (·.mapSpan noPos) ++ bs ++ bs2.map (·.mapSpan noPos)) := by
  obtain ⟨w, xs, r, hw, ⟨t, e, hsp⟩, hr'⟩ := spots_read h
  subst e
  obtain ⟨hl, hok⟩ := spots_lay hsp
  have hwr : Written (Doc.toks xs) (w ++ t) := by
    have := (hl.blank hw [] hr').1
    simpa using this
  obtain ⟨s', p', ha, -⟩ := C44_written_is_read xs hok _ hwr
  rw [h] at p'
  cases p'
  obtain ⟨xs1, x, xs2, a, c, r1, e1, e2, e3, hb, l1, l2, l3⟩ := spots_split hsp hs
  subst e1 e3
  rw [hs] at ha
  have ha' : bs1.map (·.mapSpan noPos) ++ b.mapSpan noPos :: bs2.map (·.mapSpan noPos) =
      Doc.ast xs1 ++ x.ast :: Doc.ast xs2 := by simpa [Doc.ast] using ha
  obtain ⟨f1, f2⟩ := List.append_inj ha' (by simp [Doc.ast, e2])
  obtain ⟨f2, f3⟩ := List.cons.inj f2
  have e := span_of_blockD hb hr
  have w3 : Wr (Doc.toks xs2) r1 := by
    have := (spots_lay l3).1 [] hr'
    simpa using this
  refine ⟨Doc.toks xs1, Doc.toks xs2, x, hok x (by simp), f2.symm, ⟨w ++ a, c, r1, by simp, ?_, ?_, l2, w3⟩,
    breaks_doc _, breaks_block, ?_⟩
  · rw [e, blen_append]; rfl
  · exact l1.blank hw
  · intro ys hys
    refine ⟨xs1 ++ (ys ++ xs2), ?_, by simp [Doc.toks], ?_⟩
    · intro y hy
      simp only [List.mem_append] at hy
      rcases hy with hy | hy | hy
      · exact hok y (by simp [hy])
      · exact hys y hy
      · exact hok y (by simp [hy])
    · rw [f1, f3]
      simp [Doc.ast]

/-- **C73.** Taking out the text at the span of a declaration takes out the declaration, and changes nothing else. -/
theorem C73_delete (h : parseDbmlUnchecked txt = .ok s) (hs : s.blocks = bs1 ++ b :: bs2) (hr : isRef b = false) :
    ∃ s', parseDbmlUnchecked (without txt (spanOf b)) = .ok s' ∧
      s'.blocks.map (·.mapSpan noPos) = (bs1 ++ bs2).map (·.mapSpan noPos) := by
  obtain ⟨s', p, a⟩ := (block_editable h hs hr).delete
  exact ⟨s', p, by simpa using a⟩

/-- **C73.** Replacing the text at the span of a declaration by any accepted text `u`, on lines of its own, replaces the
declaration by those of `u`, and changes nothing else - provided no `/*` before the span meets a `*/` in `u`, and no `/*`
in `u` a `*/` after the span (`FitsAt`). -/
theorem C73_splice (h : parseDbmlUnchecked txt = .ok s) (hs : s.blocks = bs1 ++ b :: bs2) (hr : isRef b = false)
    (hu : parseDbmlUnchecked u = .ok su) (hf : FitsAt txt (spanOf b) u) :
    ∃ s', parseDbmlUnchecked (splice txt (spanOf b) u) = .ok s' ∧
      s'.blocks.map (·.mapSpan noPos) = (bs1 ++ su.blocks ++ bs2).map (·.mapSpan noPos) := by
  obtain ⟨d, hd, hw, ha⟩ := (C57_ast _ _).1 ⟨su, hu, rfl⟩
  obtain ⟨s', p, a⟩ := (block_editable h hs hr).splice (xs := d) hd hw hf.1 hf.2
  refine ⟨s', p, ?_⟩
  rw [a, List.map_append, List.map_append, ← ha]
  rfl

/-- **C73.** Such a text can also be inserted directly before a declaration, or directly after it. -/
theorem C73_insert (h : parseDbmlUnchecked txt = .ok s) (hs : s.blocks = bs1 ++ b :: bs2) (hr : isRef b = false)
    (hu : parseDbmlUnchecked u = .ok su) :
    (FitsAt txt (atStart (spanOf b)) u → ∃ s', parseDbmlUnchecked (splice txt (atStart (spanOf b)) u) = .ok s' ∧
      s'.blocks.map (·.mapSpan noPos) = (bs1 ++ su.blocks ++ b :: bs2).map (·.mapSpan noPos)) ∧
    (FitsAt txt (atStop (spanOf b)) u → ∃ s', parseDbmlUnchecked (splice txt (atStop (spanOf b)) u) = .ok s' ∧
      s'.blocks.map (·.mapSpan noPos) = (bs1 ++ b :: su.blocks ++ bs2).map (·.mapSpan noPos)) := by
  obtain ⟨d, hd, hw, ha⟩ := (C57_ast _ _).1 ⟨su, hu, rfl⟩
  have ha : d.map Block.ast = su.blocks.map (·.mapSpan noPos) := ha
  refine ⟨fun hf => ?_, fun hf => ?_⟩
  · obtain ⟨s', p, a⟩ := (block_editable h hs hr).insertBefore (xs := d) hd hw hf.1 hf.2
    exact ⟨s', p, by rw [a, ha]; simp⟩
  · obtain ⟨s', p, a⟩ := (block_editable h hs hr).insertAfter (xs := d) hd hw hf.1 hf.2
    exact ⟨s', p, by rw [a, ha]; simp⟩

/-- **C73.** The edited text is accepted by `parse_dbml` exactly when the edited AST satisfies the rules. -/
theorem C73_splice_checked (h : parseDbmlUnchecked txt = .ok s) (hs : s.blocks = bs1 ++ b :: bs2)
    (hr : isRef b = false) :
    ((∃ r, parseDbml (without txt (spanOf b)) = .ok r) ↔ Valid (bare { blocks := bs1 ++ bs2 })) ∧
    ∀ u su, parseDbmlUnchecked u = .ok su → FitsAt txt (spanOf b) u →
      ((∃ r, parseDbml (splice txt (spanOf b) u) = .ok r) ↔ Valid (bare { blocks := bs1 ++ su.blocks ++ bs2 })) := by
  refine ⟨?_, fun u su hu hf => ?_⟩
  · obtain ⟨s'', p', a'⟩ := C73_delete h hs hr
    rw [accepted_iff_bare p']
    unfold bare
    rw [a']
  · obtain ⟨s', p, a⟩ := C73_splice h hs hr hu hf
    rw [accepted_iff_bare p]
    unfold bare
    rw [a]

/-! ## Concrete cases -/

/-- The table `posts` of the example. -/
def exPosts : TopLevelBlock := exAst.blocks.getD 3 (.enum {})

example : slice exText (spanOf exPosts) = k!"Table posts {
  id int [primary key] uid int [ref: > core.users.id] score decimal(5,2) [default: 1.5]
  own int }" := by decide +kernel

example : ∃ s', parseDbmlUnchecked (slice exText (spanOf exPosts)) = .ok s' ∧
    s'.blocks.map (·.mapSpan noPos) = [exPosts.mapSpan noPos] :=
  C73_alone ex_reads (by decide +kernel) (by decide +kernel)

/-- The table is replaced by two others. -/
example : ∃ s', parseDbmlUnchecked (splice exText (spanOf exPosts) k!"Table a { x int } // and\nTable b { y int }") =
      .ok s' ∧ s'.blocks.length = 8 := by
  obtain ⟨su, hu⟩ : ∃ su, parseDbmlUnchecked k!"Table a { x int } // and\nTable b { y int }" = .ok su ∧
      su.blocks.length = 2 := ⟨_, rfl, by decide +kernel⟩
  obtain ⟨s', h1, h2⟩ := C73_splice (bs1 := exAst.blocks.take 3) (b := exPosts) (bs2 := exAst.blocks.drop 4) ex_reads
    (by decide +kernel) (by decide +kernel) hu.1 (by decide +kernel)
  refine ⟨s', h1, ?_⟩
  have := congrArg List.length h2
  have e1 : (exAst.blocks.take 3).length = 3 := by decide +kernel
  have e2 : (exAst.blocks.drop 4).length = 3 := by decide +kernel
  simp only [List.length_map, List.length_append, e1, e2, hu.2] at this
  exact this

/-- The span of a ref is only its statement: reading it alone fails. -/
example : parseDbmlUnchecked (slice exText (spanOf (exAst.blocks.getD 4 (.enum {})))) = .err .syntax ∧
    isRef (exAst.blocks.getD 4 (.enum {})) = true := by decide +kernel

/-- Why the replacement stands on lines of its own: what is glued to a line comment is lost. -/
example : (parseDbmlUnchecked (k!"Note: 'a' // x" ++ k!"Table t { id int }")).get?.map (·.blocks.length) = some 1 ∧
    (parseDbmlUnchecked (k!"Note: 'a' // x" ++ '\n' :: k!"Table t { id int }")).get?.map (·.blocks.length) = some 2 := by
  decide +kernel

/-- Why no `/*` may meet a `*/`: a quoted text that begins with it becomes a comment when `*/` follows. -/
example : (parseDbmlUnchecked k!"Note: '/*' Note: 'b' Note: '*/'").get?.map (·.blocks.length) = some 1 ∧
    (parseDbmlUnchecked k!"Note: '/*' Note: 'b' Note: 'c'").get?.map (·.blocks.length) = some 3 := by
  decide +kernel

end Dbml.Props

import Verif.Proofs.Rename8

/-!
# Renaming: the edited text
-/

namespace Dbml
open Syntax Source Spec

/-! ## Where names stand -/

theorem WrP.ge : ∀ {ls : List LT} {D : Prop} {pos s}, WrP D ls pos s → ∀ n p, LT.name n p ∈ ls → pos ≤ p
  | [], _, _, _, _, _, _, hm => by simp at hm
  | .keep t :: ls, D, pos, s, ⟨w, r, _, _, _, _, _, h⟩, n, p, hm => by
    have hm : LT.name n p ∈ ls := by simpa using hm
    have := WrP.ge h n p hm
    omega
  | .name n' p' :: ls, D, pos, s, ⟨w, r, _, _, _, _, _, hp, h⟩, n, p, hm => by
    rcases List.mem_cons.1 hm with e | hm
    · injection e with _ e
      omega
    · have := WrP.ge h n p hm
      omega

theorem blen_name {n : Name} (h : n.Ok) : 0 < blen n.text := by
  have := Name.text_ne h
  cases e : n.text with
  | nil => exact absurd e this
  | cons c cs => exact blen_pos (by simp)

theorem WrP.unique : ∀ {ls : List LT} {D : Prop} {pos s}, WrP D ls pos s → ∀ n n' p, LT.name n p ∈ ls →
    LT.name n' p ∈ ls → n = n'
  | [], _, _, _, _, _, _, _, hm, _ => by simp at hm
  | .keep t :: ls, D, pos, s, ⟨w, r, _, _, _, _, _, h⟩, n, n', p, hm, hm' =>
    WrP.unique h n n' p (by simpa using hm) (by simpa using hm')
  | .name m q :: ls, D, pos, s, ⟨w, r, _, _, hk, _, _, hp, h⟩, n, n', p, hm, hm' => by
    have := blen_name hk
    rcases List.mem_cons.1 hm with e | hm <;> rcases List.mem_cons.1 hm' with e' | hm'
    · rw [← e'] at e; injection e
    · injection e with e1 e2
      have := WrP.ge h _ _ hm'
      omega
    · injection e' with e1 e2
      have := WrP.ge h _ _ hm
      omega
    · exact WrP.unique h n n' p hm hm'

theorem WrP.nameOk : ∀ {ls : List LT} {D : Prop} {pos s}, WrP D ls pos s → ∀ n p, LT.name n p ∈ ls → n.Ok
  | [], _, _, _, _, _, _, hm => by simp at hm
  | .keep t :: ls, D, pos, s, ⟨w, r, _, _, _, _, _, h⟩, n, p, hm => WrP.nameOk h n p (by simpa using hm)
  | .name m q :: ls, D, pos, s, ⟨w, r, _, _, hk, _, _, hp, h⟩, n, p, hm => by
    rcases List.mem_cons.1 hm with e | hm
    · injection e with e1 e2; rw [e1]; exact hk
    · exact WrP.nameOk h n p hm

/-- The text at the span of a name. -/
theorem WrP.slice : ∀ {ls : List LT} {D : Prop} {pos s}, WrP D ls pos s → ∀ n p, LT.name n p ∈ ls → ∀ pre : Str,
    blen pre = pos → IsSlice (pre ++ s) ⟨p, p + blen n.text⟩ n.text
  | [], _, _, _, _, _, _, hm => by simp at hm
  | .keep t :: ls, D, pos, s, ⟨w, r, e, _, _, _, _, h⟩, n, p, hm => by
    rintro pre rfl
    have := WrP.slice h n p (by simpa using hm) (pre ++ (w ++ t.txt)) (by simp [blen_append, Nat.add_assoc])
    simpa [e] using this
  | .name m q :: ls, D, pos, s, ⟨w, r, e, _, _, _, _, hp, h⟩, n, p, hm => by
    rintro pre rfl
    rcases List.mem_cons.1 hm with e' | hm
    · injection e' with e1 e2
      subst e1 e2
      exact ⟨pre ++ w, r, by simp [e], by simp [hp, blen_append], by simp [hp, blen_append]⟩
    · have := WrP.slice h n p hm (pre ++ (w ++ m.text)) (by simp [blen_append, hp, Nat.add_assoc])
      simpa [e] using this

/-! ## The edits -/

/-- The new spelling at a position. -/
def spellAt (es : Edits) : Sp := fun p => (es.find? fun e => e.1.start == p).map (·.2)

theorem spellAt_none {es : Edits} {p : Nat} (h : ∀ e ∈ es, e.1.start ≠ p) : spellAt es p = none := by
  simp only [spellAt, Option.map_eq_none_iff, List.find?_eq_none]
  intro e he
  simpa using h e he

theorem spellAt_cons {e : Span × Name} {es : Edits} {p : Nat} (h : e.1.start ≠ p) : spellAt (e :: es) p = spellAt es p := by
  simp [spellAt, h]

theorem tok_congr {g g' : Sp} {ls : List LT} (h : ∀ n p, LT.name n p ∈ ls → g p = g' p) :
    ls.map (LT.tok g) = ls.map (LT.tok g') := by
  apply List.map_congr_left
  intro l hl
  cases l with
  | keep t => rfl
  | name n p => simp only [LT.tok, h n p hl]

theorem fits_next {n w : Name} {r r' : Str} (hn : n.Ok) (hf : Fits n.text w) (hs : Sim r r') (h : n.next r) : w.next r' := by
  cases w with
  | word t =>
    have hv : IsVar n.text := hf.2
    cases n with
    | word u => exact hs.word h
    | quoted x =>
      obtain ⟨c, cs, e, hc, _⟩ := hv
      have e : '"' :: (x.pad ++ (x.val ++ k!"\"")) = c :: cs := e
      injection e with e _
      subst e
      have := alpha_word hc
      simp [IsWord] at this
  | quoted x =>
    intro hp
    exact absurd hp hf.2.2

/-- Where the edits stand. -/
def EditsAt (ls : List LT) (es : Edits) : Prop :=
  es.Pairwise (fun a b => a.1.start < b.1.start) ∧
  ∀ e ∈ es, ∃ n p, LT.name n p ∈ ls ∧ e.1 = ⟨p, p + blen n.text⟩ ∧ Fits n.text e.2

theorem applyEdits_cons (e : Span × Name) (es : Edits) (txt : Str) :
    applyEdits (e :: es) txt = replaceAt (applyEdits es txt) e.1 e.2.text := rfl

theorem replaceAt_mid (a b u r : Str) : replaceAt (a ++ (b ++ r)) ⟨blen a, blen a + blen b⟩ u = a ++ (u ++ r) := by
  unfold replaceAt
  rw [takeBytes_append]
  have : dropBytes (a ++ (b ++ r)) (blen a + blen b) = r := by
    rw [← blen_append, ← List.append_assoc, dropBytes_append]
  rw [this]

theorem wrp_edit : ∀ {ls : List LT} {D : Prop} {pos s}, WrP D ls pos s → ∀ es : Edits, EditsAt ls es →
    ∃ s', (∀ pre, blen pre = pos → applyEdits es (pre ++ s) = pre ++ s') ∧ Sim s s' ∧ (D → HexSim s s') ∧
      Written (ls.map (LT.tok (spellAt es))) s'
  | [], D, pos, s, h, es, ⟨_, he⟩ => by
    cases es with
    | nil => exact ⟨s, fun _ _ => rfl, .refl, fun _ => .refl, h⟩
    | cons e es =>
      obtain ⟨n, p, hm, _⟩ := he e (by simp)
      simp at hm
  | .keep t :: ls, D, pos, s, ⟨w, r, e, hw, hne, hn, hs, h⟩, es, ⟨hp, he⟩ => by
    subst e
    obtain ⟨r', h1, h2, h3, h4⟩ := wrp_edit h es ⟨hp, fun e hx => by
      obtain ⟨n, p, hm, h⟩ := he e hx
      exact ⟨n, p, by simpa using hm, h⟩⟩
    refine ⟨w ++ (t.txt ++ r'), ?_, (h2.append _).append _, ?_, w, r', rfl, hw, ?_, h4⟩
    · rintro pre rfl
      have := h1 (pre ++ (w ++ t.txt)) (by simp [blen_append, Nat.add_assoc])
      simpa using this
    · intro hd
      refine HexSim.append fun _ => HexSim.append fun hx => h3 (.inr ⟨hd, hx⟩)
    · by_cases hso : Soft t
      · exact hso _ _ h2 hn
      · exact hs _ _ h2 (h3 (.inl hso)) hn
  | .name n p :: ls, D, pos, s, ⟨w, r, e, hw, hk, hn, hd, hpos, h⟩, es, ⟨hp, he⟩ => by
    subst e
    have hb := blen_name hk
    have hge := WrP.ge h
    have key : (∀ e ∈ es, ∃ n' p', LT.name n' p' ∈ ls ∧ e.1 = ⟨p', p' + blen n'.text⟩ ∧ Fits n'.text e.2) ∨
        ∃ u es', es = (⟨p, p + blen n.text⟩, u) :: es' ∧ Fits n.text u := by
      cases es with
      | nil => exact .inl (by simp)
      | cons e es =>
        obtain ⟨n', p', hm, h1, h2⟩ := he e (by simp)
        rcases List.mem_cons.1 hm with e' | hm
        · injection e' with e1 e2
          subst e1 e2
          exact .inr ⟨e.2, es, by rw [← h1], h2⟩
        · refine .inl ?_
          intro x hx
          rcases List.mem_cons.1 hx with rfl | hx
          · exact ⟨n', p', hm, h1, h2⟩
          · have hlt := (List.pairwise_cons.1 hp).1 x hx
            obtain ⟨n2, p2, hm2, h3, h4⟩ := he x (by simp [hx])
            rcases List.mem_cons.1 hm2 with e' | hm2
            · injection e' with e1 e2
              have := hge _ _ hm
              rw [h1, h3] at hlt
              simp only at hlt
              omega
            · exact ⟨n2, p2, hm2, h3, h4⟩
    rcases key with key | ⟨u, es', rfl, hf⟩
    · obtain ⟨r', h1, h2, h3, h4⟩ := wrp_edit h es ⟨hp, key⟩
      have hnone : spellAt es p = none := spellAt_none fun e hx => by
        obtain ⟨n', p', hm, h1, -⟩ := key e hx
        have := hge _ _ hm
        rw [h1]
        simp only
        omega
      refine ⟨w ++ (n.text ++ r'), ?_, (h2.append _).append _, fun h => absurd h hd, w, r', ?_, hw, ?_, h4⟩
      · rintro pre rfl
        have := h1 (pre ++ (w ++ n.text)) (by simp [blen_append, hpos, Nat.add_assoc])
        simpa using this
      · simp only [LT.tok, hnone]; rfl
      · simp only [LT.tok, hnone]
        exact soft_name n _ _ h2 hn
    · obtain ⟨hp1, hp2⟩ := List.pairwise_cons.1 hp
      obtain ⟨r', h1, h2, h3, h4⟩ := wrp_edit h es' ⟨hp2, fun x hx => by
        obtain ⟨n', p', hm, h1, h2⟩ := he x (by simp [hx])
        rcases List.mem_cons.1 hm with e' | hm
        · injection e' with e1 e2
          have := hp1 x hx
          rw [h1] at this
          simp only at this
          omega
        · exact ⟨n', p', hm, h1, h2⟩⟩
      have hsome : spellAt ((⟨p, p + blen n.text⟩, u) :: es') p = some u := by
        simp [spellAt]
      refine ⟨w ++ (u.text ++ r'), ?_, (Sim.name hk hf h2).append _, fun h => absurd h hd, w, r', ?_, hw, ?_, ?_⟩
      · rintro pre rfl
        have := h1 (pre ++ (w ++ n.text)) (by simp [blen_append, hpos, Nat.add_assoc])
        rw [applyEdits_cons, show pre ++ (w ++ (n.text ++ r)) = pre ++ (w ++ n.text) ++ r by simp, this]
        have := replaceAt_mid (pre ++ w) n.text u.text r'
        rw [blen_append, ← hpos] at this
        simpa using this
      · simp only [LT.tok, hsome]; rfl
      · simp only [LT.tok, hsome]
        exact fits_next hk hf h2 hn
      · have := tok_congr (g := spellAt ((⟨p, p + blen n.text⟩, u) :: es')) (g' := spellAt es') (ls := ls) (by
          intro n' p' hm
          apply spellAt_cons
          have := hge _ _ hm
          simp only
          omega)
        rw [this]
        exact h4

/-- Without edits the layout is that of the tokens. -/
theorem WrP.written {ls D pos s} (h : WrP D ls pos s) : Written (ls.map (LT.tok noSp)) s := by
  induction ls generalizing D pos s with
  | nil => exact h
  | cons l ls ih =>
    cases l with
    | keep t =>
      obtain ⟨w, r, e, hw, hne, hn, hs, h⟩ := h
      exact ⟨w, r, e, hw, hn, ih h⟩
    | name n p =>
      obtain ⟨w, r, e, hw, hk, hn, hd, hp, h⟩ := h
      exact ⟨w, r, e, hw, hn, ih h⟩

/-! ## Names -/

theorem names_ids (b : TopLevelBlock) : ∀ x ∈ b.names, x.2 ∈ b.ids := by
  have hr : ∀ r : RefIdent, ∀ x ∈ r.names, x.2 ∈ r.ids := by
    intro r x hx
    simp only [RefIdent.names, List.mem_append, List.mem_map, List.mem_cons] at hx
    rcases hx with ⟨i, h, rfl⟩ | rfl | ⟨i, h, rfl⟩
    · simp only [RefIdent.ids, List.mem_append]; exact .inl h
    · simp [RefIdent.ids]
    · simp [RefIdent.ids, h]
  have hi : ∀ r : IndexesBlock, ∀ x ∈ r.names, x.2 ∈ r.ids := by
    intro r x hx
    simp only [IndexesBlock.names, IndexesDef.names, List.mem_flatMap] at hx
    obtain ⟨d, hd, c, hc, hx⟩ := hx
    simp only [IndexesBlock.ids, IndexesDef.ids, List.mem_flatMap]
    refine ⟨d, hd, c, hc, ?_⟩
    cases c <;> simp [IndexesColumnType.names] at hx
    subst hx
    simp [IndexesColumnType.ids]
  have hc : ∀ c : TableColumn, ∀ x ∈ c.names, x.2 ∈ c.ids := by
    intro c x hx
    simp only [TableColumn.names, ColumnSettings.names, RefInline.names, List.mem_cons, List.mem_flatMap] at hx
    rcases hx with rfl | ⟨s, hs, r, h, hx⟩
    · simp [TableColumn.ids]
    · simp only [TableColumn.ids, ColumnSettings.ids, List.mem_cons, List.mem_flatMap]
      exact .inr ⟨s, hs, r, h, hr _ _ hx⟩
  intro x hx
  cases b with
  | project p => simp [TopLevelBlock.names] at hx; subst hx; simp [TopLevelBlock.ids]
  | note n => simp [TopLevelBlock.names] at hx
  | table t =>
    simp only [TopLevelBlock.names, TableBlock.names, List.mem_append, List.mem_map, List.mem_cons,
      List.mem_flatMap] at hx
    simp only [TopLevelBlock.ids, TableBlock.ids, List.mem_append, List.mem_cons, List.mem_flatMap]
    rcases hx with ⟨i, h, rfl⟩ | rfl | ⟨i, h, rfl⟩ | ⟨c, h, hx⟩ | ⟨c, h, hx⟩
    · exact .inl (.inl h)
    · exact .inl (.inr (.inl rfl))
    · exact .inr (.inl h)
    · exact .inr (.inr (.inl ⟨c, h, hc _ _ hx⟩))
    · exact .inr (.inr (.inr ⟨c, h, hi _ _ hx⟩))
  | tableGroup g =>
    simp only [TopLevelBlock.names, TableGroupBlock.names, TableGroupItem.names, List.mem_append, List.mem_map,
      List.mem_cons, List.mem_flatMap] at hx
    simp only [TopLevelBlock.ids, TableGroupBlock.ids, List.mem_append, List.mem_cons, List.mem_flatMap]
    rcases hx with rfl | ⟨j, hj, ⟨i, h, rfl⟩ | rfl | h⟩
    · exact .inl rfl
    · exact .inr ⟨j, hj, .inl h⟩
    · exact .inr ⟨j, hj, .inr (.inl rfl)⟩
    · simp at h
  | ref r =>
    simp only [TopLevelBlock.names, RefBlock.names, List.mem_append, List.mem_map] at hx
    simp only [TopLevelBlock.ids, RefBlock.ids, List.mem_append]
    rcases hx with ⟨i, h, rfl⟩ | h | h
    · exact .inl h
    · exact .inr (.inl (hr _ _ h))
    · exact .inr (.inr (hr _ _ h))
  | enum e =>
    simp only [TopLevelBlock.names, EnumBlock.names, EnumValue.names, List.mem_append, List.mem_map, List.mem_cons,
      List.mem_flatMap] at hx
    simp only [TopLevelBlock.ids, EnumBlock.ids, List.mem_append, List.mem_cons, List.mem_map]
    rcases hx with ⟨i, h, rfl⟩ | rfl | ⟨v, hv, rfl | h⟩
    · exact .inl (.inl h)
    · exact .inl (.inr (.inl rfl))
    · exact .inr ⟨v, hv, rfl⟩
    · simp at h

/-! ## Replacing names depends on the names only -/

theorem opt_congr {α β : Type} {f g : α → β} {o : Option α} (h : ∀ x ∈ o.toList, f x = g x) : o.map f = o.map g := by
  cases o with
  | none => rfl
  | some x => simp [h x (by simp)]

section
variable {f f' : Role → Ident → Ident}

theorem RefIdent.mapNames_congr {r : RefIdent} (h : ∀ x ∈ r.names, f x.1 x.2 = f' x.1 x.2) :
    r.mapNames f = r.mapNames f' := by
  unfold RefIdent.mapNames
  rw [opt_congr (g := f' .schema) fun i hi => h (.schema, i) (by simp [RefIdent.names] at hi ⊢; exact hi),
    h (.table, r.table) (by simp [RefIdent.names]),
    List.map_congr_left (g := f' .col) fun i hi => h (.col, i) (by simp [RefIdent.names, hi])]

theorem IndexesBlock.mapNames_congr {b : IndexesBlock} (h : ∀ x ∈ b.names, f x.1 x.2 = f' x.1 x.2) :
    b.mapNames f = b.mapNames f' := by
  unfold IndexesBlock.mapNames
  rw [List.map_congr_left (g := (·.mapNames f')) fun d hd => ?_]
  unfold IndexesDef.mapNames
  rw [List.map_congr_left (g := (·.mapNames f')) fun c hc => ?_]
  cases c with
  | expr l => rfl
  | string i =>
    have := h (.col, i) (by
      simp only [IndexesBlock.names, IndexesDef.names, List.mem_flatMap]
      exact ⟨d, hd, _, hc, by simp [IndexesColumnType.names]⟩)
    simp only [IndexesColumnType.mapNames]
    rw [this]

theorem TableColumn.mapNames_congr {c : TableColumn} (h : ∀ x ∈ c.names, f x.1 x.2 = f' x.1 x.2) :
    c.mapNames f = c.mapNames f' := by
  unfold TableColumn.mapNames
  rw [h (.col, c.name) (by simp [TableColumn.names]), opt_congr (g := (·.mapNames f')) fun s hs => ?_]
  unfold ColumnSettings.mapNames
  rw [List.map_congr_left (g := (·.mapNames f')) fun r hr => ?_]
  unfold RefInline.mapNames
  rw [RefIdent.mapNames_congr fun x hx => h x ?_]
  simp only [TableColumn.names, ColumnSettings.names, RefInline.names, List.mem_cons, List.mem_flatMap]
  exact .inr ⟨s, hs, r, hr, hx⟩

theorem TableBlock.mapNames_congr {t : TableBlock} (h : ∀ x ∈ t.names, f x.1 x.2 = f' x.1 x.2) :
    t.mapNames f = t.mapNames f' := by
  unfold TableBlock.mapNames
  rw [h (.table, t.ident.name) (by simp [TableBlock.names]),
    opt_congr (g := f' .schema) fun i hi => h (.schema, i) (by simp [TableBlock.names] at hi ⊢; exact .inl hi),
    opt_congr (g := f' .table) fun i hi => h (.table, i) (by simp [TableBlock.names] at hi ⊢; exact .inr (.inl hi)),
    List.map_congr_left (g := (·.mapNames f')) fun c hc => TableColumn.mapNames_congr fun x hx => h x (by
      simp only [TableBlock.names, List.mem_append, List.mem_cons, List.mem_flatMap]
      exact .inr (.inr (.inr (.inl ⟨c, hc, hx⟩)))),
    opt_congr (o := t.indexes) (g := IndexesBlock.mapNames f') fun b hb => IndexesBlock.mapNames_congr fun x hx => h x (by
      simp only [TableBlock.names, List.mem_append, List.mem_cons, List.mem_flatMap]
      exact .inr (.inr (.inr (.inr ⟨b, hb, hx⟩))))]

theorem TableGroupBlock.mapNames_congr {t : TableGroupBlock} (h : ∀ x ∈ t.names, f x.1 x.2 = f' x.1 x.2) :
    t.mapNames f = t.mapNames f' := by
  unfold TableGroupBlock.mapNames
  rw [h (.group, t.ident) (by simp [TableGroupBlock.names]), List.map_congr_left (g := (·.mapNames f')) fun c hc => ?_]
  unfold TableGroupItem.mapNames
  have hm : ∀ x ∈ c.names, f x.1 x.2 = f' x.1 x.2 := fun x hx => h x (by
    simp only [TableGroupBlock.names, List.mem_cons, List.mem_flatMap]
    exact .inr ⟨c, hc, hx⟩)
  rw [hm (.table, c.ident_alias) (by simp [TableGroupItem.names]),
    opt_congr (g := f' .schema) fun i hi => hm (.schema, i) (by simp [TableGroupItem.names] at hi ⊢; exact hi)]

theorem RefBlock.mapNames_congr {r : RefBlock} (h : ∀ x ∈ r.names, f x.1 x.2 = f' x.1 x.2) :
    r.mapNames f = r.mapNames f' := by
  unfold RefBlock.mapNames
  rw [opt_congr (g := f' .ref) fun i hi => h (.ref, i) (by simp [RefBlock.names] at hi ⊢; exact .inl hi),
    RefIdent.mapNames_congr fun x hx => h x (by simp [RefBlock.names, hx]),
    RefIdent.mapNames_congr (r := r.rhs) fun x hx => h x (by simp [RefBlock.names, hx])]

theorem EnumBlock.mapNames_congr {e : EnumBlock} (h : ∀ x ∈ e.names, f x.1 x.2 = f' x.1 x.2) :
    e.mapNames f = e.mapNames f' := by
  unfold EnumBlock.mapNames
  rw [h (.enum, e.ident.name) (by simp [EnumBlock.names]),
    opt_congr (g := f' .enumSchema) fun i hi => h (.enumSchema, i) (by simp [EnumBlock.names] at hi ⊢; exact .inl hi),
    List.map_congr_left (g := EnumValue.mapNames f') fun v hv => ?_]
  unfold EnumValue.mapNames
  rw [h (.value, v.value) (by
    simp only [EnumBlock.names, List.mem_append, List.mem_cons, List.mem_flatMap]
    exact .inr (.inr ⟨v, hv, by simp [EnumValue.names]⟩))]

theorem TopLevelBlock.mapNames_congr {b : TopLevelBlock} (h : ∀ x ∈ b.names, f x.1 x.2 = f' x.1 x.2) :
    b.mapNames f = b.mapNames f' := by
  cases b with
  | project p => simp only [TopLevelBlock.mapNames, h (.project, p.ident) (by simp [TopLevelBlock.names])]
  | note n => rfl
  | table t => exact congrArg _ (TableBlock.mapNames_congr h)
  | tableGroup t => exact congrArg _ (TableGroupBlock.mapNames_congr h)
  | ref t => exact congrArg _ (RefBlock.mapNames_congr h)
  | enum t => exact congrArg _ (EnumBlock.mapNames_congr h)
end

end Dbml

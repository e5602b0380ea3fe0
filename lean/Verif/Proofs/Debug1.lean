import Verif.Model.Debug

/-!
# The text determines what the builders were told to write
-/

namespace Dbml.Debug

open Dbml

mutual
/-- Lines are lines: no line break in them, and a line that opens a block does not look like an item. -/
def D.Ok : D → Prop
  | .leaf s => '\n' ∉ s
  | .block h c items => '\n' ∉ h ∧ (∃ h0 x, h = h0 ++ [x] ∧ x ≠ ',') ∧ c ≠ ' ' ∧ D.Oks items
/-- All of them. -/
def D.Oks : List D → Prop
  | [] => True
  | d :: ds => d.Ok ∧ D.Oks ds
end

theorem line_inj : ∀ {a b x y : Str}, '\n' ∉ a → '\n' ∉ b → a ++ '\n' :: x = b ++ '\n' :: y → a = b ∧ x = y
  | [], [], x, y, _, _, h => by simpa using h
  | [], c :: b, x, y, _, hb, h => by
    simp only [List.nil_append, List.cons_append, List.cons.injEq] at h
    exact absurd (by simp [← h.1]) hb
  | c :: a, [], x, y, ha, _, h => by
    simp only [List.nil_append, List.cons_append, List.cons.injEq] at h
    exact absurd (by simp [h.1]) ha
  | c :: a, c' :: b, x, y, ha, hb, h => by
    simp only [List.cons_append, List.cons.injEq] at h
    simp only [List.mem_cons, not_or] at ha hb
    obtain ⟨h1, h2⟩ := line_inj ha.2 hb.2 h.2
    exact ⟨by rw [h.1, h1], h2⟩

/-- An item and a line that opens a block are different lines. -/
theorem leaf_block {s h x y : Str} (hs : '\n' ∉ s) (hh : '\n' ∉ h) (hl : ∃ h0 z, h = h0 ++ [z] ∧ z ≠ ',')
    (e : s ++ ',' :: '\n' :: x = h ++ '\n' :: y) : False := by
  have e' : (s ++ [',']) ++ '\n' :: x = h ++ '\n' :: y := by simpa using e
  obtain ⟨h1, -⟩ := line_inj (by simp [hs]) hh e'
  obtain ⟨h0, z, rfl, hz⟩ := hl
  have := (List.append_inj_right' h1 rfl)
  simp only [List.cons.injEq, and_true] at this
  exact hz this.symm

mutual
theorem render_inj : ∀ (d d' : D) (ind r r' : Str), d.Ok → d'.Ok →
    d.render ind ++ ',' :: '\n' :: r = d'.render ind ++ ',' :: '\n' :: r' → d = d' ∧ r = r'
  | .leaf s, .leaf s', ind, r, r', h, h', e => by
    unfold D.Ok at h h'
    unfold D.render at e
    have e' : (s ++ [',']) ++ '\n' :: r = (s' ++ [',']) ++ '\n' :: r' := by simpa using e
    obtain ⟨h1, h2⟩ := line_inj (by simp [h]) (by simp [h']) e'
    exact ⟨by rw [List.append_cancel_right h1], h2⟩
  | .leaf s, .block k c items, ind, r, r', h, h', e => by
    unfold D.Ok at h h'
    unfold D.render at e
    simp only [List.append_assoc, List.cons_append] at e
    exact (leaf_block h h'.1 h'.2.1 e).elim
  | .block k c items, .leaf s, ind, r, r', h, h', e => by
    unfold D.Ok at h h'
    unfold D.render at e
    simp only [List.append_assoc, List.cons_append] at e
    exact (leaf_block h' h.1 h.2.1 e.symm).elim
  | .block k c items, .block k' c' items', ind, r, r', h, h', e => by
    unfold D.Ok at h h'
    unfold D.render at e
    simp only [List.append_assoc, List.cons_append] at e
    obtain ⟨h1, h2⟩ := line_inj h.1 h'.1 e
    obtain ⟨h3, h4, h5⟩ := renders_inj items items' ind c c' _ _ h.2.2.2 h'.2.2.2 h.2.2.1 h'.2.2.1 (by simpa using h2)
    simp only [List.cons.injEq, true_and] at h5
    exact ⟨by rw [h1, h3, h4], h5⟩
theorem renders_inj : ∀ (ds ds' : List D) (ind : Str) (c c' : Char) (r r' : Str), D.Oks ds → D.Oks ds' → c ≠ ' ' → c' ≠ ' ' →
    D.renders (ind ++ k!"    ") ds ++ (ind ++ c :: r) = D.renders (ind ++ k!"    ") ds' ++ (ind ++ c' :: r') →
    ds = ds' ∧ c = c' ∧ r = r'
  | [], [], ind, c, c', r, r', _, _, _, _, e => by
    unfold D.renders at e
    have := List.append_cancel_left e
    simpa using List.append_cancel_left this
  | [], d :: ds, ind, c, c', r, r', _, _, hc, _, e => by
    unfold D.renders at e
    simp only [List.append_assoc, List.nil_append] at e
    have := List.append_cancel_left e
    simp only [List.cons_append, List.cons.injEq] at this
    exact absurd this.1 hc
  | d :: ds, [], ind, c, c', r, r', _, _, _, hc, e => by
    unfold D.renders at e
    simp only [List.append_assoc, List.nil_append] at e
    have := List.append_cancel_left e
    simp only [List.cons_append, List.cons.injEq] at this
    exact absurd this.1.symm hc
  | d :: ds, d' :: ds', ind, c, c', r, r', h, h', hc, hc', e => by
    unfold D.Oks at h h'
    unfold D.renders at e
    simp only [List.append_assoc (as := ind ++ k!"    ")] at e
    have e1 := List.append_cancel_left e
    simp only [List.append_assoc, List.cons_append] at e1
    obtain ⟨rfl, e2⟩ := render_inj d d' _ _ _ h.1 h'.1 e1
    obtain ⟨rfl, h3, h4⟩ := renders_inj ds ds' ind c c' r r' h.2 h'.2 hc hc' (by simpa using e2)
    exact ⟨rfl, h3, h4⟩
end

/-- The text determines what was written. -/
theorem render_eq {d d' : D} (h : d.Ok) (h' : d'.Ok) (e : d.render [] = d'.render []) : d = d' :=
  (render_inj d d' [] [] [] h h' (by rw [e])).1

/-! ## The builders -/

theorem key_inj {k : Str} {d d' : D} : d.key k = d'.key k ↔ d = d' := by
  cases d <;> cases d' <;> simp [D.key]

/-- Different things are written differently. -/
def Inj {α} (f : α → D) : Prop := ∀ a b, f a = f b → a = b

/-- Different things that satisfy a condition on the doubles in them are written differently. -/
def Tells {α} (C : F64 → Prop) (f : α → D) (ds : α → List F64) : Prop :=
  ∀ a b, (∀ x ∈ ds a, C x) → (∀ x ∈ ds b, C x) → f a = f b → a = b

/-- What is written are lines. -/
def Fine {α} (f : α → D) : Prop := ∀ a, (f a).Ok

theorem Inj.opt {α} {f : α → D} (h : Inj f) : Inj (opt f) := by
  intro a b e
  cases a <;> cases b <;> simp only [Debug.opt, tuple, reduceCtorEq, D.block.injEq, List.cons.injEq, true_and, and_true] at e ⊢
  rw [h _ _ e]

theorem Tells.opt {α C} {f : α → D} {ds} (h : Tells C f ds) : Tells C (opt f) fun o => o.toList.flatMap ds := by
  intro a b ha hb e
  cases a <;> cases b <;> simp only [Debug.opt, tuple, reduceCtorEq, D.block.injEq, List.cons.injEq, true_and, and_true] at e ⊢
  rw [h _ _ (by simpa using ha) (by simpa using hb) e]

theorem Tells.map {α C} {f : α → D} {ds} (h : Tells C f ds) : ∀ (a b : List α), (∀ x ∈ a.flatMap ds, C x) →
    (∀ x ∈ b.flatMap ds, C x) → a.map f = b.map f → a = b
  | [], [], _, _, _ => rfl
  | [], _ :: _, _, _, e => by simp at e
  | _ :: _, [], _, _, e => by simp at e
  | x :: a, y :: b, ha, hb, e => by
    simp only [List.map_cons, List.cons.injEq] at e
    simp only [List.flatMap_cons, List.mem_append] at ha hb
    rw [h x y (fun z hz => ha z (.inl hz)) (fun z hz => hb z (.inl hz)) e.1,
      h.map a b (fun z hz => ha z (.inr hz)) (fun z hz => hb z (.inr hz)) e.2]

theorem Tells.list {α C} {f : α → D} {ds} (h : Tells C f ds) : Tells C (list f) fun l => l.flatMap ds := by
  intro a b ha hb e
  cases a with
  | nil => cases b with
    | nil => rfl
    | cons y b => simp [Debug.list] at e
  | cons x a => cases b with
    | nil => simp [Debug.list] at e
    | cons y b =>
      simp only [Debug.list, D.block.injEq, true_and] at e
      exact h.map _ _ ha hb e

theorem Inj.list {α} {f : α → D} (h : Inj f) : Inj (list f) := by
  intro a b e
  exact Tells.list (C := fun _ => True) (ds := fun _ => []) (fun a b _ _ e => h a b e) a b (by simp) (by simp) e

theorem fine_key {k : Str} {d : D} (hk : '\n' ∉ k) (h : d.Ok) : (d.key k).Ok := by
  cases d with
  | leaf s => simpa [D.key, D.Ok, hk] using h
  | block hd c items =>
    obtain ⟨h1, ⟨h0, x, rfl, hx⟩, h3⟩ := h
    exact ⟨by simp only [List.mem_append, not_or] at h1 ⊢; exact ⟨hk, h1⟩, ⟨k ++ h0, x, by simp, hx⟩, h3⟩

/-- All fields are lines. -/
def FieldsOk : List (Str × D) → Prop
  | [] => True
  | (k, d) :: ps => '\n' ∉ k ∧ d.Ok ∧ FieldsOk ps

theorem fieldsOk_map : ∀ {fs : List (Str × D)}, FieldsOk fs → D.Oks (fs.map fun p => p.2.key (p.1 ++ k!": "))
  | [], _ => trivial
  | (_, _) :: fs, h => ⟨fine_key (by simp [h.1]) h.2.1, fieldsOk_map h.2.2⟩

theorem fine_struct {n : Str} {fs : List (Str × D)} (hn : '\n' ∉ n) (h : FieldsOk fs) : (struct n fs).Ok :=
  ⟨by simp [hn], ⟨n ++ [' '], '{', by simp, by decide⟩, by decide, fieldsOk_map h⟩

theorem fine_tuple {n : Str} {d : D} (hn : '\n' ∉ n) (h : d.Ok) : (tuple n d).Ok :=
  ⟨by simp [hn], ⟨n, '(', rfl, by decide⟩, by decide, h, trivial⟩

theorem Fine.opt {α} {f : α → D} (h : Fine f) : Fine (opt f) := by
  intro a
  cases a with
  | none => show '\n' ∉ k!"None"; decide
  | some a => exact fine_tuple (by decide) (h a)

theorem Fine.oks {α} {f : α → D} (h : Fine f) : ∀ l : List α, D.Oks (l.map f)
  | [] => trivial
  | a :: l => ⟨h a, h.oks l⟩

theorem Fine.list {α} {f : α → D} (h : Fine f) : Fine (list f) := by
  intro a
  cases a with
  | nil => show '\n' ∉ k!"[]"; decide
  | cons x l => exact ⟨by decide, ⟨[], '[', rfl, by decide⟩, by decide, h.oks (x :: l)⟩

end Dbml.Debug

import Verif.Proofs.Reading8
import Verif.Proofs.SkipExact

/-!
# Well-formedness of described documents is decidable

Used to show that concrete documents meet the hypotheses of the round trip theorems.
-/

namespace Dbml
open Syntax Source

instance (c : Char) : Decidable (IsWord c) := inferInstanceAs (Decidable (_ ∨ _))

instance (s : Str) : Decidable (IsVar s) :=
  match s with
  | [] => .isFalse (by rintro ⟨_, _, h, -⟩; cases h)
  | c :: cs =>
    if h : c.isAlpha = true ∧ ∀ x ∈ cs, IsWord x then .isTrue ⟨c, cs, rfl, h⟩
    else .isFalse (by rintro ⟨_, _, he, h1⟩; cases he; exact h h1)

def spacedTailB : Str → Bool
  | [] => true
  | ' ' :: c :: t => decide (IsWord c) && spacedTailB t
  | c :: t => decide (IsWord c) && spacedTailB t

theorem spacedTailB_iff : ∀ s, spacedTailB s = true ↔ SpacedTail s := by
  intro s
  fun_induction spacedTailB s with
  | case1 => simp [SpacedTail.nil]
  | case2 c t ih =>
    simp only [Bool.and_eq_true, decide_eq_true_eq, ih]
    constructor
    · rintro ⟨h1, h2⟩; exact .blank h1 h2
    · intro h
      cases h with
      | word h _ => simp [IsWord] at h
      | blank h1 h2 => exact ⟨h1, h2⟩
  | case3 c t hne ih =>
    simp only [Bool.and_eq_true, decide_eq_true_eq, ih]
    constructor
    · rintro ⟨h1, h2⟩; exact .word h1 h2
    · intro h
      cases h with
      | word h1 h2 => exact ⟨h1, h2⟩
      | blank h1 h2 => exact absurd rfl (hne _ _ rfl)

instance (s : Str) : Decidable (IsSpacedVar s) :=
  match s with
  | [] => .isFalse (by rintro ⟨_, _, h, -⟩; cases h)
  | c :: cs =>
    if h : c.isAlpha = true ∧ spacedTailB cs = true then .isTrue ⟨c, cs, rfl, h.1, (spacedTailB_iff _).1 h.2⟩
    else .isFalse (by rintro ⟨_, _, he, h1, h2⟩; cases he; exact h ⟨h1, (spacedTailB_iff _).2 h2⟩)

instance (q s : Str) : Decidable (Closed q s) := inferInstanceAs (Decidable (∀ i < s.length, _))

instance decHead (P : Char → Prop) [DecidablePred P] (s : Str) : Decidable (∀ c cs, s = c :: cs → P c) :=
  match s with
  | [] => .isTrue (by simp)
  | c :: cs => if h : P c then .isTrue (by rintro _ _ ⟨⟩; exact h) else .isFalse fun h' => h (h' _ _ rfl)

instance (q : Str) (x : Quote) : Decidable (x.Ok q) := inferInstanceAs (Decidable (_ ∧ _))
instance (q : Str) (x : Quote) : Decidable (x.Tight q) := inferInstanceAs (Decidable (_ ∧ _))
instance (k s : Str) : Decidable (Keyword k s) := inferInstanceAs (Decidable (_ = _))
instance (s : Str) : Decidable (IsDigits s) := inferInstanceAs (Decidable (_ ∧ _))
instance (c : Char) : Decidable (IsHexDigit c) := inferInstanceAs (Decidable (_ ∨ _))

instance (n : Name) : Decidable n.Ok :=
  match n with
  | .word s => inferInstanceAs (Decidable (IsVar s))
  | .quoted x => inferInstanceAs (Decidable (x.Ok _))

instance (n : Name) : Decidable n.Tight :=
  match n with
  | .word s => inferInstanceAs (Decidable (IsVar s))
  | .quoted x => inferInstanceAs (Decidable (x.Tight _))

instance (n : StrLit) : Decidable n.Ok :=
  match n with
  | .single x => inferInstanceAs (Decidable (x.Ok _))
  | .triple x => inferInstanceAs (Decidable (x.Ok _))

instance (n : StrLit) : Decidable n.Tight :=
  match n with
  | .single x => inferInstanceAs (Decidable (x.Tight _))
  | .triple x => inferInstanceAs (Decidable (x.Tight _))

instance (n : Lit) : Decidable n.NumOk :=
  match n with
  | .int ds => inferInstanceAs (Decidable (_ ∧ _))
  | .dec _ _ => inferInstanceAs (Decidable (_ ∧ _))
  | .hex _ => inferInstanceAs (Decidable (_ ∧ _))
  | .str _ | .expr _ | .tru | .fls | .null => .isTrue trivial

instance (n : Lit) : Decidable n.Ok :=
  match n with
  | .str l => inferInstanceAs (Decidable l.Ok)
  | .expr x => inferInstanceAs (Decidable (x.Ok _))
  | .int ds => inferInstanceAs (Decidable (Lit.int ds).NumOk)
  | .dec a b => inferInstanceAs (Decidable (Lit.dec a b).NumOk)
  | .hex h => inferInstanceAs (Decidable (Lit.hex h).NumOk)
  | .tru | .fls | .null => .isTrue trivial

instance (n : Lit) : Decidable n.Tight :=
  match n with
  | .str l => inferInstanceAs (Decidable l.Tight)
  | .expr x => inferInstanceAs (Decidable (x.Tight _))
  | .int ds => inferInstanceAs (Decidable (Lit.int ds).NumOk)
  | .dec a b => inferInstanceAs (Decidable (Lit.dec a b).NumOk)
  | .hex h => inferInstanceAs (Decidable (Lit.hex h).NumOk)
  | .tru | .fls | .null => .isTrue trivial

instance (v : AVal) : Decidable v.Ok :=
  match v with
  | .lit l => inferInstanceAs (Decidable l.Ok)
  | .word _ => inferInstanceAs (Decidable (_ ∧ _))
  | .dq x => inferInstanceAs (Decidable (x.Ok _))

instance decOpt {α : Type} (o : Option α) (P : α → Prop) [DecidablePred P] : Decidable (∀ a, o = some a → P a) :=
  match o with
  | none => .isTrue (by simp)
  | some a => if h : P a then .isTrue (by rintro _ ⟨⟩; exact h) else .isFalse fun h' => h (h' a rfl)

instance (a : Attr) : Decidable a.Ok := inferInstanceAs (Decidable (_ ∧ _))
instance (n : Source.Note) : Decidable n.Ok := inferInstanceAs (Decidable (_ ∧ _))

instance (v : AVal) : Decidable (∀ s, v ≠ .dq s) :=
  match v with
  | .dq s => .isFalse fun h => h s rfl
  | .lit _ => .isTrue (by simp)
  | .word _ => .isTrue (by simp)

instance (v : AVal) : Decidable (∃ l, v = .lit (.str l)) :=
  match v with
  | .dq s => .isFalse (by simp)
  | .word s => .isFalse (by simp)
  | .lit (.str l) => .isTrue ⟨l, rfl⟩
  | .lit (.expr _) | .lit .tru | .lit .fls | .lit .null | .lit (.int _) | .lit (.dec _ _) | .lit (.hex _) =>
    .isFalse (by simp)

instance (i : ProjItem) : Decidable i.Ok :=
  match i with
  | .note n => inferInstanceAs (Decidable n.Ok)
  | .prop k v => inferInstanceAs (Decidable (IsSpacedVar k ∧ v.Ok ∧ (∀ s, v ≠ .dq s) ∧
      ¬ (Keyword k!"note" k ∧ ∃ l, v = .lit (.str l))))

instance (p : Source.Project) : Decidable p.Ok := inferInstanceAs (Decidable (_ ∧ _))
instance (r : REnd) : Decidable r.Ok := inferInstanceAs (Decidable (_ ∧ _))

instance (r : InlineRef) : Decidable r.Ok := inferInstanceAs (Decidable (_ ∧ _))

instance decTab {α : Type} (w : Str) (xs : List (Str × α)) : Decidable (∃ x, (w, x) ∈ xs) :=
  if h : w ∈ xs.map Prod.fst then .isTrue (by
    obtain ⟨⟨a, b⟩, h1, rfl⟩ := List.mem_map.1 h
    exact ⟨b, h1⟩)
  else .isFalse (by rintro ⟨x, hx⟩; exact h (List.mem_map.2 ⟨_, hx, rfl⟩))

instance decWord (o : Option AVal) (P : Str → Prop) [DecidablePred P] : Decidable (∀ w, o = some (.word w) → P w) :=
  match o with
  | none => .isTrue (by simp)
  | some (.word w) => if h : P w then .isTrue (by rintro _ ⟨⟩; exact h) else .isFalse fun h' => h (h' w rfl)
  | some (.lit _) => .isTrue (by simp)
  | some (.dq _) => .isTrue (by simp)

instance (as : List Attr) : Decidable (RefAttrsOk as) := inferInstanceAs (Decidable (_ ∧ _))
instance (as : List Attr) : Decidable (IndexAttrsOk as) := inferInstanceAs (Decidable (_ ∧ _))
instance (r : Source.Ref) : Decidable r.Ok := inferInstanceAs (Decidable (_ ∧ _))

instance (c : ICol) : Decidable c.Ok :=
  match c with
  | .name n => inferInstanceAs (Decidable n.Ok)
  | .expr x => inferInstanceAs (Decidable (x.Ok _))
instance (c : IDef) : Decidable c.Ok := inferInstanceAs (Decidable (_ ∧ _))
instance (c : Idxs) : Decidable c.Ok := inferInstanceAs (Decidable (_ ∧ _))
instance (c : EVal) : Decidable c.Ok := inferInstanceAs (Decidable (_ ∧ _))
instance (c : Source.Enum) : Decidable c.Ok := inferInstanceAs (Decidable (_ ∧ _))

instance (b : TBody) : Decidable b.Ok :=
  match b with
  | .plain n a r => inferInstanceAs (Decidable (IsVar n ∧ (∀ l ∈ a.getD [], l.Tight) ∧ ∀ o ∈ r, ∀ ds, o = some ds →
      IsDigits ds ∧ digitsNat ds < 2 ^ 32))
  | .quoted n a r r' => inferInstanceAs (Decidable (IsSpacedVar n ∧ (∀ l ∈ a.getD [], l.Tight) ∧
      ∀ o ∈ r ++ r', ∀ ds, o = some ds → IsDigits ds ∧ digitsNat ds < 2 ^ 32))
instance (b : TBody) : Decidable b.NoDot :=
  match b with
  | .plain _ _ _ => .isTrue trivial
  | .quoted _ _ _ _ => inferInstanceAs (Decidable (_ ≠ _))
instance (b : Ty) : Decidable b.Ok := inferInstanceAs (Decidable (_ ∧ _ ∧ (_ → _)))
instance (c : ColSet) : Decidable c.Ok :=
  match c with
  | .attr a => inferInstanceAs (Decidable a.Ok)
  | .ref a => inferInstanceAs (Decidable a.Ok)
instance (b : Col) : Decidable b.Ok := inferInstanceAs (Decidable (_ ∧ _))
instance (c : TItem) : Decidable c.Ok :=
  match c with
  | .col a => inferInstanceAs (Decidable a.Ok)
  | .note a => inferInstanceAs (Decidable a.Ok)
  | .indexes a => inferInstanceAs (Decidable a.Ok)
instance (b : Table) : Decidable b.Ok := inferInstanceAs (Decidable (_ ∧ _))
instance (c : GItem) : Decidable c.Ok :=
  match c with
  | .note a => inferInstanceAs (Decidable a.Ok)
  | .item _ _ => inferInstanceAs (Decidable (_ ∧ _))
instance (b : Group) : Decidable b.Ok := inferInstanceAs (Decidable (_ ∧ _))
instance (c : Block) : Decidable c.Ok :=
  match c with
  | .project a => inferInstanceAs (Decidable a.Ok)
  | .table a => inferInstanceAs (Decidable a.Ok)
  | .group a => inferInstanceAs (Decidable a.Ok)
  | .note a => inferInstanceAs (Decidable a.Ok)
  | .ref a => inferInstanceAs (Decidable a.Ok)
  | .enum a => inferInstanceAs (Decidable a.Ok)
instance (d : Doc) : Decidable d.Ok := inferInstanceAs (Decidable (∀ _ ∈ _, _))

end Dbml

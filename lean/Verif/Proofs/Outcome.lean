import Verif.Proofs.RsLemmas
import Verif.Model.Analyzer
import Verif.Spec.Defects

/-!
# Possible outcomes of a phase of the analyzer

`Outcome input P E K x`: if `x` is a value it satisfies `P`; if it is an error it is a semantic one that
satisfies `E`; if it panics, either the site satisfies `K`, or the panic comes from an error satisfying
`E` whose span is not a range of the input; and it does not diverge.
-/

namespace Dbml
open Spec

def Outcome {α : Type} (input : Str) (P : α → Prop) (E : Err → Span → Prop) (K : PanicSite → Prop) :
    Rs α → Prop
  | .ok a => P a
  | .err (.semantic e sp) => E e sp
  | .err _ => False
  | .panic k => K k ∨ (k = .spanUnwrap ∧ ∃ e sp, E e sp ∧ sp.valid input = false)
  | .diverge => False

/-- No panic. -/
abbrev NoK : PanicSite → Prop := fun _ => False

section
variable {α β : Type} {input : Str} {P : α → Prop} {E : Err → Span → Prop} {K : PanicSite → Prop}

theorem Outcome.ok {a : α} (h : P a) : Outcome input P E K (.ok a) := h
theorem Outcome.pure {a : α} (h : P a) : Outcome input P E K (Pure.pure a) := h

theorem Outcome.throw {e sp} (h : E e sp) : Outcome input P E K (throwErr e sp input) := by
  unfold throwErr
  split
  · exact h
  · rename_i hv
    exact Or.inr ⟨rfl, e, sp, h, by simpa using hv⟩

theorem Outcome.panic {k} (h : K k) : Outcome input P E K (.panic k) := Or.inl h

theorem Outcome.bind {x : Rs α} {f : α → Rs β} {Q : β → Prop} (hx : Outcome input P E K x)
    (hf : ∀ a, P a → Outcome input Q E K (f a)) : Outcome input Q E K (x >>= f) := by
  cases x with
  | ok a => exact hf a hx
  | err e => cases e <;> exact hx
  | panic k => exact hx
  | diverge => exact hx

theorem Outcome.mono {x : Rs α} {P' : α → Prop} {E' : Err → Span → Prop} {K' : PanicSite → Prop}
    (hx : Outcome input P E K x) (hP : ∀ a, P a → P' a) (hE : ∀ e sp, E e sp → E' e sp)
    (hK : ∀ k, K k → K' k) : Outcome input P' E' K' x := by
  cases x with
  | ok a => exact hP _ hx
  | err e => cases e <;> first | exact hE _ _ hx | exact hx
  | panic k =>
    rcases hx with h | ⟨h, e, sp, h1, h2⟩
    · exact Or.inl (hK _ h)
    · exact Or.inr ⟨h, e, sp, hE _ _ h1, h2⟩
  | diverge => exact hx

theorem Outcome.weaken {x : Rs α} {P' : α → Prop} (hx : Outcome input P E NoK x) (hP : ∀ a, P a → P' a) :
    Outcome input P' E K x := hx.mono hP (fun _ _ h => h) (fun _ h => h.elim)

theorem Outcome.ite {c : Prop} [Decidable c] {x y : Rs α} (h1 : c → Outcome input P E K x)
    (h2 : ¬ c → Outcome input P E K y) : Outcome input P E K (if c then x else y) := by
  split
  · exact h1 ‹_›
  · exact h2 ‹_›

theorem Outcome.foldlM {σ : Type} {f : σ → α → Rs σ} {Inv : List α → σ → Prop} (xs : List α) (s : σ)
    (h0 : Inv [] s)
    (h : ∀ pre x post s, xs = pre ++ x :: post → Inv pre s → Outcome input (Inv (pre ++ [x])) E K (f s x)) :
    Outcome input (Inv xs) E K (xs.foldlM f s) := by
  suffices H : ∀ done rest s, xs = done ++ rest → Inv done s →
      Outcome input (Inv xs) E K (rest.foldlM f s) from H [] xs s rfl h0
  intro done rest
  induction rest generalizing done with
  | nil => intro s he hi; simp only [List.append_nil] at he; subst he; exact hi
  | cons x rest ih =>
    intro s he hi
    rw [List.foldlM_cons]
    refine (h done x rest s he hi).bind fun s' hs' => ?_
    exact ih (done ++ [x]) s' (by simp [he]) hs'

/-- As `foldlM`, with the first failing element. -/
theorem Outcome.foldlM_first {σ : Type} {f : σ → α → Rs σ} {Inv : List α → σ → Prop} {E : List α → α → Err → Span → Prop}
    (xs : List α) (s : σ) (h0 : Inv [] s)
    (h : ∀ pre x post s, xs = pre ++ x :: post → Inv pre s → Outcome input (Inv (pre ++ [x])) (E pre x) K (f s x)) :
    Outcome input (Inv xs) (fun e sp => ∃ pre x post, xs = pre ++ x :: post ∧ (∃ s, Inv pre s) ∧ E pre x e sp) K
      (xs.foldlM f s) :=
  Outcome.foldlM xs s h0 fun pre x post s hs hi =>
    (h pre x post s hs hi).mono (fun _ h => h) (fun _ _ h => ⟨pre, x, post, hs, ⟨s, hi⟩, h⟩) fun _ h => h

theorem Outcome.forEach {f : α → Rs Unit} {Q : List α → α → Prop} (xs : List α)
    (h : ∀ pre x post, xs = pre ++ x :: post → Outcome input (fun _ => Q pre x) E K (f x)) :
    Outcome input (fun _ => ∀ pre x post, xs = pre ++ x :: post → Q pre x) E K (Dbml.forEach f xs) := by
  suffices H : ∀ done rest, xs = done ++ rest →
      Outcome input (fun _ => ∀ pre x post, rest = pre ++ x :: post → Q (done ++ pre) x) E K
        (Dbml.forEach f rest) from H [] xs rfl
  intro done rest
  induction rest generalizing done with
  | nil => intro _; exact fun pre x post h => by simp at h
  | cons x rest ih =>
    intro he
    refine (h done x rest he).bind fun _ h1 => (ih (done ++ [x]) (by simp [he])).mono ?_
      (fun _ _ h => h) (fun _ h => h)
    intro _ h2 pre y post hp
    cases pre with
    | nil => simp only [List.nil_append, List.cons.injEq] at hp; rw [← hp.1]; simpa using h1
    | cons z pre =>
      simp only [List.cons_append, List.cons.injEq] at hp
      have := h2 pre y post hp.2
      rw [← hp.1]; simpa using this

/-- Element-wise relation between two lists. -/
inductive All2 {α β : Type} (R : α → β → Prop) : List α → List β → Prop
  | nil : All2 R [] []
  | cons {a b as bs} : R a b → All2 R as bs → All2 R (a :: as) (b :: bs)

theorem Outcome.mapM {f : α → Rs β} {R : α → β → Prop} (xs : List α)
    (h : ∀ x ∈ xs, Outcome input (R x) E K (f x)) :
    Outcome input (All2 R xs) E K (xs.mapM f) := by
  induction xs with
  | nil => exact All2.nil
  | cons x xs ih =>
    rw [List.mapM_cons]
    refine (h x (by simp)).bind fun b hb => ?_
    refine (ih fun y hy => h y (by simp [hy])).bind fun bs hbs => ?_
    exact All2.cons hb hbs

/-- The first failing element determines the outcome. -/
theorem Outcome.forEach_first {f : α → Rs Unit} {Q : List α → α → Prop} {E : α → Err → Span → Prop}
    {K : α → PanicSite → Prop} (xs : List α)
    (h : ∀ pre x post, xs = pre ++ x :: post → Outcome input (fun _ => Q pre x) (E x) (K x) (f x)) :
    Outcome input (fun _ => ∀ pre x post, xs = pre ++ x :: post → Q pre x)
      (fun e sp => ∃ pre x post, xs = pre ++ x :: post ∧ (∀ p y q, pre = p ++ y :: q → Q p y) ∧ E x e sp)
      (fun k => ∃ pre x post, xs = pre ++ x :: post ∧ (∀ p y q, pre = p ++ y :: q → Q p y) ∧ K x k)
      (Dbml.forEach f xs) := by
  suffices H : ∀ done rest, xs = done ++ rest → (∀ p y q, done = p ++ y :: q → Q p y) →
      Outcome input (fun _ => ∀ pre x post, xs = pre ++ x :: post → Q pre x)
        (fun e sp => ∃ pre x post, xs = pre ++ x :: post ∧ (∀ p y q, pre = p ++ y :: q → Q p y) ∧ E x e sp)
        (fun k => ∃ pre x post, xs = pre ++ x :: post ∧ (∀ p y q, pre = p ++ y :: q → Q p y) ∧ K x k)
        (Dbml.forEach f rest) from H [] xs rfl (by simp)
  intro done rest
  induction rest generalizing done with
  | nil => intro he hd; simp only [List.append_nil] at he; subst he; exact hd
  | cons x rest ih =>
    intro he hd
    refine Outcome.bind (P := fun _ => Q done x)
      ((h done x rest he).mono (fun _ h => h) (fun _ _ h => ⟨done, x, rest, he, hd, h⟩)
        fun _ h => ⟨done, x, rest, he, hd, h⟩) fun _ h1 => ih (done ++ [x]) (by simp [he]) ?_
    intro p y q hp
    rcases List.eq_nil_or_concat q with rfl | ⟨q, z, rfl⟩
    · obtain ⟨e1, e2⟩ := List.append_inj' hp rfl
      cases e2; subst e1; exact h1
    · rw [List.concat_eq_append, ← List.cons_append, ← List.append_assoc] at hp
      obtain ⟨e1, -⟩ := List.append_inj' hp rfl
      exact hd p y q e1

theorem Outcome.mapM_first {f : α → Rs β} {R : α → β → Prop} {E : α → Err → Span → Prop}
    {K : α → PanicSite → Prop} (xs : List α)
    (h : ∀ x ∈ xs, Outcome input (R x) (E x) (K x) (f x)) :
    Outcome input (All2 R xs)
      (fun e sp => ∃ pre x post, xs = pre ++ x :: post ∧ (∀ y ∈ pre, ∃ b, R y b) ∧ E x e sp)
      (fun k => ∃ pre x post, xs = pre ++ x :: post ∧ (∀ y ∈ pre, ∃ b, R y b) ∧ K x k) (xs.mapM f) := by
  induction xs with
  | nil => exact All2.nil
  | cons x xs ih =>
    rw [List.mapM_cons]
    refine Outcome.bind (P := R x) ((h x (by simp)).mono (fun _ h => h)
      (fun _ _ h => ⟨[], x, xs, rfl, by simp, h⟩) fun _ h => ⟨[], x, xs, rfl, by simp, h⟩) fun b hb => ?_
    refine Outcome.bind (P := All2 R xs) ((ih fun y hy => h y (by simp [hy])).mono (fun _ h => h) ?_ ?_)
      fun bs hbs => All2.cons hb hbs
    · rintro e sp ⟨pre, y, post, rfl, h1, h2⟩
      refine ⟨x :: pre, y, post, rfl, ?_, h2⟩
      intro z hz
      rcases List.mem_cons.1 hz with rfl | hz
      · exact ⟨b, hb⟩
      · exact h1 z hz
    · rintro k ⟨pre, y, post, rfl, h1, h2⟩
      refine ⟨x :: pre, y, post, rfl, ?_, h2⟩
      intro z hz
      rcases List.mem_cons.1 hz with rfl | hz
      · exact ⟨b, hb⟩
      · exact h1 z hz

end

/-! ## Duplicate keys -/

theorem dupKeys_none {α : Type} {key : α → Str} {xs : List α} {seen : List Str}
    (h : (dupKeys key seen xs).head? = none) : (∀ x ∈ xs, key x ∉ seen) ∧ (xs.map key).Nodup := by
  induction xs generalizing seen with
  | nil => simp
  | cons a as ih =>
    unfold dupKeys at h
    split at h
    · simp at h
    · rename_i hs
      obtain ⟨h1, h2⟩ := ih h
      simp only [List.contains_eq_mem, decide_eq_true_eq] at hs
      constructor
      · simp only [List.mem_cons, forall_eq_or_imp]
        exact ⟨hs, fun x hx => fun hm => h1 x hx (by simp [hm])⟩
      · simp only [List.map_cons, List.nodup_cons, List.mem_map, not_exists, not_and]
        exact ⟨fun x hx he => h1 x hx (by simp [he]), h2⟩

theorem dupKeys_some {α : Type} {key : α → Str} {xs : List α} {seen : List Str} {b : α}
    (h : (dupKeys key seen xs).head? = some b) :
    ∃ pre post, xs = pre ++ b :: post ∧ (key b ∈ seen ∨ ∃ a ∈ pre, key a = key b) := by
  induction xs generalizing seen with
  | nil => simp [dupKeys] at h
  | cons a as ih =>
    unfold dupKeys at h
    split at h
    · rename_i hs
      simp only [List.head?_cons, Option.some.injEq] at h
      subst h
      exact ⟨[], as, rfl, Or.inl (by simpa using hs)⟩
    · obtain ⟨pre, post, h1, h2⟩ := ih h
      refine ⟨a :: pre, post, by simp [h1], ?_⟩
      rcases h2 with h2 | ⟨x, hx, h2⟩
      · rcases List.mem_cons.1 h2 with h2 | h2
        · exact Or.inr ⟨a, by simp, h2.symm⟩
        · exact Or.inl h2
      · exact Or.inr ⟨x, by simp [hx], h2⟩

section
variable {input : Str} {E : Err → Span → Prop} {K : PanicSite → Prop}

theorem checkAttr_out {as : List Attribute}
    (hE : ∀ a, Again (·.key.to_string) as a → E .duplicateAttributeKey a.span_range) :
    Outcome input (fun _ => DistinctKeys as) E K (checkAttrDuplicateKeys as input) := by
  unfold checkAttrDuplicateKeys
  split
  · rename_i a h
    obtain ⟨pre, post, h1, h2⟩ := dupKeys_some h
    rcases h2 with h2 | h2
    · simp at h2
    · exact Outcome.throw (hE a ⟨pre, post, h1, h2⟩)
  · rename_i h
    exact (dupKeys_none h).2

theorem checkProp_out {as : List Property}
    (hE : ∀ a, Again (·.key.to_string) as a → E .duplicatePropertyKey a.span_range) :
    Outcome input (fun _ => (as.map (·.key.to_string)).Nodup) E K (checkPropDuplicateKeys as input) := by
  unfold checkPropDuplicateKeys
  split
  · rename_i a h
    obtain ⟨pre, post, h1, h2⟩ := dupKeys_some h
    rcases h2 with h2 | h2
    · simp at h2
    · exact Outcome.throw (hE a ⟨pre, post, h1, h2⟩)
  · rename_i h
    exact (dupKeys_none h).2

theorem checkSettings_out {o : Option (List Attribute)}
    (hE : ∀ as a, o = some as → Again (·.key.to_string) as a → E .duplicateAttributeKey a.span_range) :
    Outcome input (fun _ => ∀ as, o = some as → DistinctKeys as) E K (checkSettings o input) := by
  unfold checkSettings
  split
  · exact (checkAttr_out fun a h => hE _ a rfl h).mono
      (fun _ h as e => by cases e; exact h) (fun _ _ h => h) fun _ h => h
  · exact fun as h => by cases h

theorem checkProject_out {s : SchemaBlock} :
    Outcome input (fun _ => ProjectOk s) (ProjectDefect s) K (checkProject s.projects s.span_range input) := by
  unfold checkProject
  refine Outcome.ite (fun h => Outcome.throw (.manyProjects h)) fun h => ?_
  split
  · rename_i p hp
    have hone : s.projects = [p] := by
      cases hs : s.projects with
      | nil => simp [hs] at hp
      | cons q qs =>
        cases qs with
        | nil => simpa [hs] using hp
        | cons _ _ => simp [hs] at h
    exact (checkProp_out fun a ha => .property hone ha).mono (fun _ hn => ⟨p, hone, hn⟩)
      (fun _ _ h => h) fun _ h => h
  · rename_i hp
    exact Outcome.throw (.noProject (by simpa using hp))

end

end Dbml

import Verif.Proofs.Outcome
import Verif.Spec.Checklist

/-!
# Running through a checklist

`Tells input l m`: the computation `m` succeeds if all checks of `l` pass, and otherwise reports the first that fails.
-/

namespace Dbml
open Spec

/-- What the program does on a verdict. -/
def Spec.Verdict.raise {α : Type} (input : Str) : Verdict → Rs α
  | .error e sp => throwErr e sp input
  | .crash => .panic .argsIndex

def Tells {α : Type} (input : Str) (l : List Check) (m : Rs α) : Prop :=
  (∃ a, m = .ok a ∧ Passes l) ∨ ∃ v, Decides l v ∧ m = v.raise input

/-! ## Checklists -/

theorem Spec.Passes.nil : Passes [] := fun _ h => by simp at h
theorem Spec.passes_cons {c : Check} {l} : Passes (c :: l) ↔ ¬ c.bad ∧ Passes l := by
  simp [Passes]
theorem Spec.passes_append {l l' : List Check} : Passes (l ++ l') ↔ Passes l ∧ Passes l' := by
  simp only [Passes, List.mem_append]
  exact ⟨fun h => ⟨fun c hc => h c (.inl hc), fun c hc => h c (.inr hc)⟩, fun h c hc => hc.elim (h.1 c) (h.2 c)⟩

theorem Spec.Decides.here {c : Check} {l} (h : c.bad) : Decides (c :: l) c.verdict :=
  ⟨[], c, l, rfl, Passes.nil, h, rfl⟩
theorem Spec.Decides.left {l l' : List Check} {v} (h : Decides l v) : Decides (l ++ l') v := by
  obtain ⟨p, c, q, rfl, h1, h2, h3⟩ := h
  exact ⟨p, c, q ++ l', by simp, h1, h2, h3⟩
theorem Spec.Decides.right {l l' : List Check} {v} (hl : Passes l) (h : Decides l' v) : Decides (l ++ l') v := by
  obtain ⟨p, c, q, rfl, h1, h2, h3⟩ := h
  exact ⟨l ++ p, c, q, by simp, passes_append.2 ⟨hl, h1⟩, h2, h3⟩

theorem Spec.Decides.not_passes {l : List Check} {v} (h : Decides l v) : ¬ Passes l := by
  obtain ⟨p, c, q, rfl, h1, h2, h3⟩ := h
  exact fun h => h c (by simp) h2

theorem Spec.Decides.unique {l : List Check} {v w} (h : Decides l v) (h' : Decides l w) : v = w := by
  obtain ⟨p, c, q, rfl, h1, h2, rfl⟩ := h
  obtain ⟨p', c', q', e, h1', h2', rfl⟩ := h'
  induction p generalizing p' with
  | nil =>
    cases p' with
    | nil => simp at e; rw [e.1]
    | cons d p' =>
      simp only [List.nil_append, List.cons_append, List.cons.injEq] at e
      exact absurd (e.1 ▸ h2) (h1' d (by simp))
  | cons d p ih =>
    cases p' with
    | nil =>
      simp only [List.nil_append, List.cons_append, List.cons.injEq] at e
      exact absurd (e.1 ▸ h2') (h1 d (by simp))
    | cons d' p' =>
      simp only [List.cons_append, List.cons.injEq] at e
      exact ih (passes_cons.1 h1).2 p' e.2 (passes_cons.1 h1').2

/-- A list of checks either passes or has a verdict. -/
theorem Spec.passes_or_decides (l : List Check) : Passes l ∨ ∃ v, Decides l v := by
  induction l with
  | nil => exact .inl .nil
  | cons c l ih =>
    by_cases h : c.bad
    · exact .inr ⟨_, .here h⟩
    · have h1 : Passes [c] := passes_cons.2 ⟨h, .nil⟩
      rcases ih with ih | ⟨v, ih⟩
      · exact .inl (passes_cons.2 ⟨h, ih⟩)
      · exact .inr ⟨v, .right h1 ih⟩

/-! ## Programs -/

section
variable {α β : Type} {input : Str}

theorem Tells.ok {l} {a : α} (h : Passes l) : Tells input l (.ok a) := .inl ⟨a, rfl, h⟩
theorem Tells.pure {l} {a : α} (h : Passes l) : Tells input l (Pure.pure a : Rs α) := .inl ⟨a, rfl, h⟩

theorem Tells.throw {bad : Prop} {e sp l} (h : bad) : Tells input (.err bad e sp :: l) (throwErr e sp input : Rs α) :=
  .inr ⟨.error e sp, Decides.here (c := .err bad e sp) h, rfl⟩

theorem Tells.crash {bad : Prop} {l} (h : bad) : Tells input (⟨bad, .crash⟩ :: l) (.panic .argsIndex : Rs α) :=
  .inr ⟨.crash, Decides.here (c := ⟨bad, .crash⟩) h, rfl⟩

theorem Tells.after {l l'} {m : Rs α} (hl : Passes l) (h : Tells input l' m) : Tells input (l ++ l') m := by
  rcases h with ⟨a, e, h⟩ | ⟨v, h, e⟩
  · exact .inl ⟨a, e, passes_append.2 ⟨hl, h⟩⟩
  · exact .inr ⟨v, .right hl h, e⟩

theorem Tells.skip {c l} {m : Rs α} (hc : ¬ c.bad) (h : Tells input l m) : Tells input (c :: l) m :=
  Tells.after (l := [c]) (passes_cons.2 ⟨hc, .nil⟩) h

theorem Tells.before {l l'} {m : Rs α} (hl : Passes l' ) (h : Tells input l m) : Tells input (l ++ l') m := by
  rcases h with ⟨a, e, h⟩ | ⟨v, h, e⟩
  · exact .inl ⟨a, e, passes_append.2 ⟨h, hl⟩⟩
  · exact .inr ⟨v, .left h, e⟩

theorem Tells.ite {c bad : Prop} [Decidable c] {e sp l} {m : Rs α} (hb : c ↔ bad) (h : ¬ bad → Tells input l m) :
    Tells input (.err bad e sp :: l) (if c then throwErr e sp input else m) := by
  by_cases hc : c
  · rw [if_pos hc]; exact .throw (hb.1 hc)
  · rw [if_neg hc]; exact .skip (fun h => hc (hb.2 h)) (h fun h => hc (hb.2 h))

theorem Tells.bind {l l'} {x : Rs α} {f : α → Rs β} (hx : Tells input l x)
    (hf : ∀ a, x = .ok a → Passes l → Tells input l' (f a)) : Tells input (l ++ l') (x >>= f) := by
  rcases hx with ⟨a, rfl, h⟩ | ⟨v, h, rfl⟩
  · exact .after h (hf a rfl h)
  · refine .inr ⟨v, h.left, ?_⟩
    cases v with
    | error e sp =>
      show (throwErr e sp input : Rs α) >>= f = throwErr e sp input
      unfold throwErr
      by_cases hv : sp.valid input = true
      · rw [if_pos hv, if_pos hv]; rfl
      · rw [if_neg hv, if_neg hv]; rfl
    | crash => rfl

/-- The program does one more thing that cannot fail. -/
theorem Tells.bind_ok {l} {x : Rs α} {f : α → Rs β} (hx : Tells input l x) (hf : ∀ a, x = .ok a → ∃ b, f a = .ok b) :
    Tells input l (x >>= f) := by
  have := Tells.bind (l' := []) hx (f := f) fun a h _ => by
    obtain ⟨b, hb⟩ := hf a h
    rw [hb]; exact .ok .nil
  rwa [List.append_nil] at this

theorem Outcome.of_ok {P : α → Prop} {E K} {x : Rs α} {a} (h : Outcome input P E K x) (e : x = .ok a) : P a := by
  subst e; exact h

theorem Tells.foldlM {σ : Type} {f : σ → α → Rs σ} {Inv : List α → σ → Prop} {g : List α → α → List α → List Check}
    (xs : List α) (s : σ) (h0 : Inv [] s)
    (hi : ∀ pre x post s s', xs = pre ++ x :: post → Inv pre s → f s x = .ok s' → Inv (pre ++ [x]) s')
    (h : ∀ pre x post s, xs = pre ++ x :: post → Inv pre s → Tells input (g pre x post) (f s x)) :
    Tells input (inTurn g [] xs) (xs.foldlM f s) := by
  suffices H : ∀ done rest s, xs = done ++ rest → Inv done s →
      Tells input (inTurn g done rest) (rest.foldlM f s) from H [] xs s rfl h0
  intro done rest
  induction rest generalizing done with
  | nil => intro s _ _; exact .ok .nil
  | cons x rest ih =>
    intro s he hd
    rw [List.foldlM_cons, inTurn]
    exact (h done x rest s he hd).bind fun s' hs' _ => ih (done ++ [x]) s' (by simp [he]) (hi done x rest s s' he hd hs')

theorem Tells.forEach {f : α → Rs Unit} {g : List α → α → List α → List Check} (xs : List α)
    (h : ∀ pre x post, xs = pre ++ x :: post → Tells input (g pre x post) (f x)) :
    Tells input (inTurn g [] xs) (Dbml.forEach f xs) := by
  suffices H : ∀ done rest, xs = done ++ rest → Tells input (inTurn g done rest) (Dbml.forEach f rest) from H [] xs rfl
  intro done rest
  induction rest generalizing done with
  | nil => intro _; exact .ok .nil
  | cons x rest ih =>
    intro he
    rw [Dbml.forEach, inTurn]
    exact (h done x rest he).bind fun _ _ _ => ih (done ++ [x]) (by simp [he])

theorem Tells.forEach' {f : α → Rs Unit} {g : α → List Check} (xs : List α)
    (h : ∀ x ∈ xs, Tells input (g x) (f x)) : Tells input (xs.flatMap g) (Dbml.forEach f xs) := by
  induction xs with
  | nil => exact .ok .nil
  | cons x xs ih =>
    rw [Dbml.forEach, List.flatMap_cons]
    exact (h x (by simp)).bind fun _ _ _ => ih fun y hy => h y (by simp [hy])

theorem Tells.mapM {f : α → Rs β} {g : α → List Check} (xs : List α)
    (h : ∀ x ∈ xs, Tells input (g x) (f x)) : Tells input (xs.flatMap g) (xs.mapM f) := by
  induction xs with
  | nil => exact .ok .nil
  | cons x xs ih =>
    rw [List.mapM_cons, List.flatMap_cons]
    refine (h x (by simp)).bind fun b _ _ => ?_
    exact (ih fun y hy => h y (by simp [hy])).bind_ok fun bs _ => ⟨_, rfl⟩

/-! ## Duplicate keys -/

theorem dupKeys_tells {key : α → Str} {err : Err} {span : α → Span} {m : Rs Unit} (xs : List α)
    (hs : ∀ a, (dupKeys key [] xs).head? = some a → m = throwErr err (span a) input)
    (hn : (dupKeys key [] xs).head? = none → m = .ok ()) :
    Tells input (inTurn (fun before a _ => [.err (∃ b ∈ before, key b = key a) err (span a)]) [] xs) m := by
  suffices H : ∀ done rest seen, (∀ n, n ∈ seen ↔ ∃ b ∈ done, key b = n) →
      (∀ a, (dupKeys key seen rest).head? = some a → m = throwErr err (span a) input) →
      ((dupKeys key seen rest).head? = none → m = .ok ()) →
      Tells input (inTurn (fun before a _ => [.err (∃ b ∈ before, key b = key a) err (span a)]) done rest) m from
    H [] xs [] (by simp) hs hn
  intro done rest
  clear hs hn
  induction rest generalizing done with
  | nil =>
    intro seen _ _ hn
    rw [hn rfl]; exact .ok .nil
  | cons x rest ih =>
    intro seen hseen hs hn
    rw [dupKeys] at hs hn
    rw [inTurn]
    by_cases h : key x ∈ seen
    · rw [if_pos (by simpa using h)] at hs
      rw [hs x rfl]
      exact .throw ((hseen _).1 h)
    · rw [if_neg (by simpa using h)] at hs hn
      refine .skip (fun h' => h ((hseen _).2 h')) (ih (done ++ [x]) (key x :: seen) ?_ hs hn)
      intro n
      simp only [List.mem_cons, hseen, List.mem_append, List.not_mem_nil, or_false]
      constructor
      · rintro (rfl | ⟨b, hb, rfl⟩)
        · exact ⟨x, by simp, rfl⟩
        · exact ⟨b, by simp [hb], rfl⟩
      · rintro ⟨b, hb | rfl, rfl⟩
        · exact .inr ⟨b, hb, rfl⟩
        · exact .inl rfl

theorem checkAttr_tells (as : List Attribute) : Tells input (settingChecks as) (checkAttrDuplicateKeys as input) := by
  refine dupKeys_tells (key := fun a : Attribute => a.key.to_string) (err := .duplicateAttributeKey)
    (span := fun a => a.span_range) as (fun a h => ?_) fun h => ?_ <;>
  · unfold checkAttrDuplicateKeys; rw [h]

theorem checkProp_tells (as : List Property) :
    Tells input (inTurn (fun before a _ =>
      [.err (∃ b ∈ before, b.key.to_string = a.key.to_string) .duplicatePropertyKey a.span_range]) [] as)
      (checkPropDuplicateKeys as input) := by
  refine dupKeys_tells (key := fun a : Property => a.key.to_string) (err := .duplicatePropertyKey)
    (span := fun a => a.span_range) as (fun a h => ?_) fun h => ?_ <;>
  · unfold checkPropDuplicateKeys; rw [h]

theorem checkSettings_tells {st : Type} (o : Option st) (f : st → List Attribute) :
    Tells input (o.toList.flatMap fun s => settingChecks (f s)) (checkSettings (o.map f) input) := by
  cases o with
  | none => exact .ok .nil
  | some s => simpa [checkSettings] using checkAttr_tells (f s)

theorem checkProject_tells (s : SchemaBlock) :
    Tells input (projectChecks s) (checkProject s.projects s.span_range input) := by
  unfold projectChecks checkProject
  refine Tells.ite (by omega) fun h => ?_
  cases hp : s.projects with
  | nil => exact .throw rfl
  | cons p ps =>
    have : ps = [] := by
      rw [hp] at h
      cases ps with
      | nil => rfl
      | cons _ _ => simp at h
    subst this
    refine .skip (by simp) ?_
    simp only [List.flatMap_cons, List.flatMap_nil, List.append_nil, List.head?_cons]
    exact checkProp_tells p.properties

end
end Dbml

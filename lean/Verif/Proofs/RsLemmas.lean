import Verif.Model.Result

namespace Dbml

instance : LawfulMonad Rs := LawfulMonad.mk'
  (id_map := by intro α x; cases x <;> rfl)
  (pure_bind := by intros; rfl)
  (bind_assoc := by intro α β γ x f g; cases x <;> rfl)

@[simp] theorem Rs.bind_def {α β} (x : Rs α) (f : α → Rs β) : (x >>= f) = Rs.bind x f := rfl
@[simp] theorem Rs.pure_def {α} (x : α) : (pure x : Rs α) = .ok x := rfl
@[simp] theorem Rs.ok_bind {α β} (a : α) (f : α → Rs β) : Rs.bind (.ok a) f = f a := rfl
@[simp] theorem Rs.err_bind {α β} (e) (f : α → Rs β) : Rs.bind (.err e) f = .err e := rfl
@[simp] theorem Rs.panic_bind {α β} (e) (f : α → Rs β) : Rs.bind (.panic e) f = .panic e := rfl
@[simp] theorem Rs.diverge_bind {α β} (f : α → Rs β) : Rs.bind .diverge f = .diverge := rfl

theorem Rs.bind_ok {α β} {x : Rs α} {f : α → Rs β} {b} :
    Rs.bind x f = .ok b ↔ ∃ a, x = .ok a ∧ f a = .ok b := by
  cases x <;> simp

@[simp] theorem Rs.bind_assoc {α β γ} (x : Rs α) (f : α → Rs β) (g : β → Rs γ) :
    Rs.bind (Rs.bind x f) g = Rs.bind x fun a => Rs.bind (f a) g := by cases x <;> rfl

@[simp] theorem Rs.bind_pure {α} (x : Rs α) : Rs.bind x .ok = x := by cases x <;> rfl

theorem Rs.ok_bind' {α β : Type} {a : α} {f : α → Rs β} : (Rs.ok a >>= f) = f a := rfl

theorem Rs.bind_eq_ok {α β : Type} {x : Rs α} {f : α → Rs β} {b} :
    (x >>= f) = .ok b ↔ ∃ a, x = .ok a ∧ f a = .ok b := Rs.bind_ok

end Dbml

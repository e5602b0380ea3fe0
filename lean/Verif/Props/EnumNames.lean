import Verif.Props.Core
import Verif.Proofs.EnumNames
import Verif.Proofs.RecodeDoc

/-!
# C79: enums can be renamed

Enums, their schemas and their values can be renamed consistently - in their declarations, in the types of columns and
in defaults - without changing whether a text is accepted.
-/

namespace Dbml.Props

open Dbml Spec

/-- Renaming enums does not change whether a schema is valid. -/
theorem C79_valid {ε : EnumRenaming} (h : ε.Ok) (s : SchemaBlock) : Valid (renameEnums ε s) ↔ Valid s := EnumNames.valid h

/-- Two texts that have the same core after enums are renamed, and after a renaming of everything else, are both
accepted or both rejected. -/
theorem C79_text {ε ε' : EnumRenaming} {ρ ρ' : Renaming} (hε : ε.Ok) (hε' : ε'.Ok) (hρ : ρ.Ok) (hρ' : ρ'.Ok)
    {t t' : Str} {s s' : SchemaBlock}
    (h : parseDbmlUnchecked t = .ok s) (h' : parseDbmlUnchecked t' = .ok s')
    (hc : core ρ (renameEnums ε s) = core ρ' (renameEnums ε' s')) :
    (∃ r, parseDbml t = .ok r) ↔ ∃ r, parseDbml t' = .ok r := by
  have key : ∀ {u : Str} {r : SchemaBlock}, parseDbmlUnchecked u = .ok r → ((∃ x, parseDbml u = .ok x) ↔ Valid r) := by
    intro u r hu
    constructor
    · rintro ⟨x, hx⟩
      obtain ⟨h1, h2⟩ := (C33_accepts_iff_valid u x).1 hx
      rw [hu] at h1; cases h1; exact h2
    · intro hv; exact ⟨r, (C33_accepts_iff_valid u r).2 ⟨hu, hv⟩⟩
  rw [key h, key h', ← C79_valid hε, ← C63_valid hρ, hc, C63_valid hρ', C79_valid hε']

/-! ## Renamings -/

/-- The type of a column when schemas of enums are renamed by `f` and enums by `g`. -/
def typeBy (f g : Str → Str) (n : Str) : Str :=
  if (ColumnTypeName.fromStr n).isSome then n
  else if '.' ∈ n then
    if '.' ∈ (EnumNames.typeKey n).2 then n
    else f (EnumNames.typeKey n).1 ++ ('.' :: g (EnumNames.typeKey n).2)
  else g n

theorem dotless_table : ColumnTypeName.table.all (fun p => !p.1.contains '.') = true := by decide +kernel

theorem builtin_dotless {n : Str} {t : ColumnTypeName} (h : ColumnTypeName.fromStr n = some t) : '.' ∉ n := by
  have := List.all_eq_true.1 dotless_table _ (EnumNames.lookup_mem h)
  simpa using this

theorem dropWhile_append (n : Str) (h : '.' ∈ n) :
    n = n.takeWhile (· ≠ '.') ++ '.' :: (n.dropWhile (· ≠ '.')).drop 1 ∧ '.' ∉ n.takeWhile (· ≠ '.') := by
  induction n with
  | nil => simp at h
  | cons c cs ih =>
    by_cases hc : c = '.'
    · subst hc; simp
    · have := ih (by simpa [Ne.symm hc] using h)
      simp [hc] at this ⊢
      exact ⟨this.1, Ne.symm hc, this.2⟩

/-- A type that is not built in, without a dot. -/
theorem typeBy_plain {f g : Str → Str} {n : Str} (hn : ColumnTypeName.fromStr n = none) (hd : '.' ∉ n) :
    typeBy f g n = g n := by
  simp [typeBy, hn, hd]

/-- A type that is not built in, with one dot. -/
theorem typeBy_dot {f g : Str → Str} {a b : Str} (ha : '.' ∉ a) (hb : '.' ∉ b) :
    typeBy f g (a ++ '.' :: b) = f a ++ '.' :: g b := by
  have hn : ColumnTypeName.fromStr (a ++ '.' :: b) = none := by
    cases h : ColumnTypeName.fromStr (a ++ '.' :: b) with
    | none => rfl
    | some t => exact absurd (builtin_dotless h) (by simp)
  have hk : EnumNames.typeKey (a ++ '.' :: b) = (a, b) := EnumNames.typeKey_of (.inr ⟨a, b, rfl, ha, hb, rfl⟩)
  simp [typeBy, hn, hk, hb]

/-- Every consistent renaming of enums and their schemas that introduces no dots and does not turn a name into that of a
built-in type extends to the types of columns. -/
theorem ok_by {f g : Str → Str} {v : Str × Str → Str → Str} (hf : ∀ a b, f a = f b → a = b) (hg : ∀ a b, g a = g b → a = b)
    (hv : ∀ k a b, v k a = v k b → a = b) (hp : f k!"public" = k!"public") (hpl : ∀ k x, IsPlain x → v k x.toStr = x.toStr)
    (df : ∀ a, '.' ∉ a → '.' ∉ f a) (dg : ∀ a, '.' ∉ a → '.' ∉ g a)
    (hb : ∀ n, ColumnTypeName.fromStr n = none → ColumnTypeName.fromStr (g n) = none) :
    (⟨f, g, v, typeBy f g⟩ : EnumRenaming).Ok where
  schema := hf
  name := hg
  value := hv
  pub := hp
  plain := hpl
  builtin n ty h := by simp [typeBy, h]
  other n h := by
    show ColumnTypeName.fromStr (typeBy f g n) = none
    by_cases hd : '.' ∈ n
    · have : '.' ∈ typeBy f g n := by
        simp only [typeBy, h, Option.isSome_none, Bool.false_eq_true, if_false, hd, if_true]
        split
        · exact hd
        · simp
      cases e : ColumnTypeName.fromStr (typeBy f g n) with
      | none => rfl
      | some t => exact absurd this (builtin_dotless e)
    · rw [typeBy_plain h hd]; exact hb n h
  means n k' h := by
    show EnumRef (typeBy f g n) k' ↔ _
    by_cases hd : '.' ∈ n
    · obtain ⟨e1, e2⟩ := dropWhile_append n hd
      by_cases hr : '.' ∈ (n.dropWhile (· ≠ '.')).drop 1
      · have hk : (EnumNames.typeKey n).2 = (n.dropWhile (· ≠ '.')).drop 1 := by simp [EnumNames.typeKey, hd]
        have ht : typeBy f g n = n := by
          unfold typeBy; rw [hk, h]; simp only [Option.isSome_none, Bool.false_eq_true, if_false, hd, if_true, hr]
        have no : ∀ k, ¬ EnumRef n k := by
          rintro k (⟨q, -⟩ | ⟨a, b, rfl, ha, hb', -⟩)
          · exact q hd
          · rw [EnumNames.dropWhile_dot a b ha] at hr
            exact hb' (by simpa using hr)
        rw [ht]
        constructor
        · intro q; exact absurd q (no _)
        · rintro ⟨k, q, -⟩; exact absurd q (no _)
      · generalize n.takeWhile (· ≠ '.') = a at e1 e2
        generalize (n.dropWhile (· ≠ '.')).drop 1 = b at e1 hr
        subst e1
        rw [typeBy_dot e2 hr]
        have hk : EnumRef (a ++ '.' :: b) (a, b) := .inr ⟨a, b, rfl, e2, hr, rfl⟩
        have hk' : EnumRef (f a ++ '.' :: g b) (f a, g b) := .inr ⟨_, _, rfl, df a e2, dg b hr, rfl⟩
        constructor
        · intro q
          exact ⟨_, hk, (EnumNames.typeKey_of q).symm.trans (EnumNames.typeKey_of hk')⟩
        · rintro ⟨k, q, rfl⟩
          rw [← EnumNames.typeKey_of q, EnumNames.typeKey_of hk]; exact hk'
    · rw [typeBy_plain h hd]
      have hk : EnumRef n (k!"public", n) := .inl ⟨hd, rfl⟩
      have hk' : EnumRef (g n) (k!"public", g n) := .inl ⟨dg n hd, rfl⟩
      constructor
      · intro q
        refine ⟨_, hk, ?_⟩
        rw [← EnumNames.typeKey_of q, EnumNames.typeKey_of hk']
        simp only [EnumRenaming.key, hp]
      · rintro ⟨k, q, rfl⟩
        rw [← EnumNames.typeKey_of q, EnumNames.typeKey_of hk]
        simp only [EnumRenaming.key, hp]; exact hk'

/-- Enums named by their schema can be named without it if it is `public`. -/
def dropPublic (n : Str) : Str :=
  if k!"public." <+: n ∧ '.' ∉ n.drop 7 ∧ ColumnTypeName.fromStr (n.drop 7) = none then n.drop 7 else n

/-- Writing `public.e` as `e` is a renaming that changes no name. -/
theorem ok_dropPublic : ({ type := dropPublic } : EnumRenaming).Ok where
  schema _ _ h := h
  name _ _ h := h
  value _ _ _ h := h
  pub := rfl
  plain _ _ _ := rfl
  builtin n ty h := by
    show dropPublic n = n
    unfold dropPublic
    split
    · rename_i q
      obtain ⟨⟨r, rfl⟩, -⟩ := q
      exact absurd (builtin_dotless h) (by simp)
    · rfl
  other n h := by
    show ColumnTypeName.fromStr (dropPublic n) = none
    unfold dropPublic
    split
    · rename_i q; exact q.2.2
    · exact h
  means n k' h := by
    show EnumRef (dropPublic n) k' ↔ ∃ k, EnumRef n k ∧ k' = k
    simp only [exists_eq_right']
    unfold dropPublic
    split
    · rename_i q
      obtain ⟨⟨r, rfl⟩, hr, -⟩ := q
      simp only [List.cons_append, List.nil_append, List.drop_succ_cons, List.drop_zero] at hr ⊢
      have h1 : EnumRef r (k!"public", r) := .inl ⟨hr, rfl⟩
      have h2 : EnumRef ('p' :: 'u' :: 'b' :: 'l' :: 'i' :: 'c' :: '.' :: r) (k!"public", r) :=
        .inr ⟨k!"public", r, rfl, by decide, hr, rfl⟩
      constructor
      · intro e; rw [← EnumNames.typeKey_of e, EnumNames.typeKey_of h1]; exact h2
      · intro e; rw [← EnumNames.typeKey_of e, EnumNames.typeKey_of h2]; exact h1
    · rfl

/-- Two texts that differ only in whether the types of columns name the schema `public` are both accepted or both
rejected. -/
theorem C79_public {t t' : Str} {s s' : SchemaBlock}
    (h : parseDbmlUnchecked t = .ok s) (h' : parseDbmlUnchecked t' = .ok s')
    (hc : core {} (renameEnums { type := dropPublic } s) = core {} (renameEnums { type := dropPublic } s')) :
    (∃ r, parseDbml t = .ok r) ↔ ∃ r, parseDbml t' = .ok r :=
  C79_text ok_dropPublic ok_dropPublic ok_id ok_id h h' hc

/-! ## Example -/

/-- A schema with two enums and three columns of such types. -/
def exEnums : Str := k!"Project shop { }
Enum core.status { open \"in use\" [note: 'x'] }
Enum color { red green }
Table t { id int [pk] s core.status [default: 'open'] c color [default: red, unique] d integer [default: 5] }
Table u { id int [pk] c public.color [ref: - t.c] }"

/-- Enums, their schema and their values renamed. -/
def exEnums' : Str := k!"Project shop { }
Enum app.state { ready \"in use\" [note: 'y'] }
Enum hue { crimson green }
Table t { id int [pk] s app.state [default: \"ready\"] c hue [default: crimson, unique] d integer [default: 5] }
Table u { id int [pk] c public.hue [ref: - t.c] }"

theorem swap_dot {a b x : Str} (ha : '.' ∉ a) (hb : '.' ∉ b) (h : '.' ∉ x) : '.' ∉ swapNames a b x := by
  unfold swapNames; split
  · exact hb
  · split
    · exact ha
    · exact h

/-- A character of a numeral. -/
def NumC (c : Char) : Prop := c.isDigit = true ∨ c = '-' ∨ c = '.'

theorem digits_num (n : Nat) : ∀ c ∈ Nat.toDigits 10 n, NumC c := fun c hc => .inl ((natDigits_isDigits n).2 c hc)

theorem f64plain_num (d : Nat) (x : Int) : ∀ c ∈ F64.plain d x, NumC c := by
  unfold F64.plain
  dsimp only
  split
  · exact digits_num _
  · have hds : ∀ c ∈ List.replicate ((-x).toNat + 1 - (F64.natDigits d).length) '0' ++ F64.natDigits d, NumC c := by
      intro c hc
      rcases List.mem_append.1 hc with hc | hc
      · rw [(List.mem_replicate.1 hc).2]; exact .inl (by decide)
      · exact digits_num d c hc
    generalize List.replicate ((-x).toNat + 1 - (F64.natDigits d).length) '0' ++ F64.natDigits d = ds at hds ⊢
    have hfp : ∀ c ∈ ((ds.drop (ds.length - (-x).toNat)).reverse.dropWhile (· = '0')).reverse, NumC c := by
      intro c hc
      have := (List.dropWhile_sublist _).subset (List.mem_reverse.1 hc)
      exact hds c (List.mem_of_mem_drop (List.mem_reverse.1 this))
    split
    · intro c hc; exact hds c (List.mem_of_mem_take hc)
    · intro c hc
      rcases List.mem_append.1 hc with hc | hc
      · rcases List.mem_append.1 hc with hc | hc
        · exact hds c (List.mem_of_mem_take hc)
        · rw [List.mem_singleton.1 hc]; exact .inr (.inr rfl)
      · exact hfp c hc

/-- The texts of numbers, truth values and null. -/
theorem plain_text {v : Value} (h : IsPlain v) :
    v.toStr ∈ [k!"inf", k!"true", k!"false", k!"null"] ∨ ∀ c ∈ v.toStr, NumC c := by
  cases v with
  | integer n =>
    right
    cases n with
    | ofNat k => exact digits_num k
    | negSucc k =>
      intro c hc
      rcases List.mem_cons.1 hc with rfl | hc
      · exact .inr (.inl rfl)
      · exact digits_num (k + 1) c hc
  | decimal x =>
    show F64.display x ∈ _ ∨ ∀ c ∈ F64.display x, NumC c
    unfold F64.display
    split
    · left; decide
    · right
      split
      · intro c hc; rw [List.mem_singleton.1 hc]; exact .inl (by decide)
      · exact f64plain_num _ _
  | bool b => left; cases b <;> decide
  | null => left; decide
  | _ => exact h.elim

theorem swap_plain {a b : Str} (ha : a ∉ [k!"inf", k!"true", k!"false", k!"null"] ∧ ∃ c ∈ a, ¬ NumC c)
    (hb : b ∉ [k!"inf", k!"true", k!"false", k!"null"] ∧ ∃ c ∈ b, ¬ NumC c) (v : Value) (h : IsPlain v) :
    swapNames a b v.toStr = v.toStr := by
  have key : ∀ x : Str, x ∉ [k!"inf", k!"true", k!"false", k!"null"] ∧ (∃ c ∈ x, ¬ NumC c) → v.toStr ≠ x := by
    rintro x ⟨h1, c, hc, h2⟩ rfl
    rcases plain_text h with q | q
    · exact h1 q
    · exact h2 (q c hc)
  unfold swapNames
  rw [if_neg (key a ha), if_neg (key b hb)]

/-- The renaming from one to the other. -/
def exEnumRenaming : EnumRenaming :=
  ⟨swapNames k!"core" k!"app", fun n => swapNames k!"status" k!"state" (swapNames k!"color" k!"hue" n),
   fun k => if k = (k!"core", k!"status") then swapNames k!"open" k!"ready"
     else if k = (k!"public", k!"color") then swapNames k!"red" k!"crimson" else id,
   typeBy (swapNames k!"core" k!"app") fun n => swapNames k!"status" k!"state" (swapNames k!"color" k!"hue" n)⟩

theorem swap_other {a b n : Str} (ha : ColumnTypeName.fromStr a = none) (hb : ColumnTypeName.fromStr b = none)
    (h : ColumnTypeName.fromStr n = none) : ColumnTypeName.fromStr (swapNames a b n) = none := by
  unfold swapNames; split
  · exact hb
  · split
    · exact ha
    · exact h

theorem num_letter {a : Str} (h : a.any (fun c => c.isAlpha) = true) : ∃ c ∈ a, ¬ NumC c := by
  obtain ⟨c, hc, h⟩ := List.any_eq_true.1 h
  refine ⟨c, hc, ?_⟩
  rintro (q | rfl | rfl)
  · simp only [Char.isAlpha, Char.isUpper, Char.isLower, Char.isDigit, ge_iff_le, Bool.or_eq_true, Bool.and_eq_true,
      decide_eq_true_eq, UInt32.le_iff_toNat_le] at h q
    simp at h q
    omega
  · exact absurd h (by decide)
  · exact absurd h (by decide)

theorem exEnumRenaming_ok : exEnumRenaming.Ok := by
  refine ok_by (swapNames_inj _ _) (fun a b h => swapNames_inj _ _ _ _ (swapNames_inj _ _ _ _ h)) ?_ (by decide) ?_
    (fun a h => swap_dot (by decide) (by decide) h)
    (fun a h => swap_dot (by decide) (by decide) (swap_dot (by decide) (by decide) h))
    (fun a h => swap_other (by decide +kernel) (by decide +kernel) (swap_other (by decide +kernel) (by decide +kernel) h))
  · intro k a b h
    split at h
    · exact swapNames_inj _ _ _ _ h
    · split at h
      · exact swapNames_inj _ _ _ _ h
      · exact h
  · intro k v h
    split
    · exact swap_plain ⟨by decide, num_letter (by decide)⟩ ⟨by decide, num_letter (by decide)⟩ v h
    · split
      · exact swap_plain ⟨by decide, num_letter (by decide)⟩ ⟨by decide, num_letter (by decide)⟩ v h
      · rfl

example : (∃ r, parseDbml exEnums = .ok r) ∧ ∃ r, parseDbml exEnums' = .ok r := by
  have h : (parseDbml exEnums).get?.isSome = true := by decide +kernel
  obtain ⟨r, hr⟩ := Option.isSome_iff_exists.1 h
  exact ⟨⟨r, Rs.eq_ok_of_get? hr⟩, (C79_text exEnumRenaming_ok (ε' := {})
    ⟨fun _ _ h => h, fun _ _ h => h, fun _ _ _ h => h, rfl, fun _ _ _ => rfl, fun _ _ _ => rfl, fun _ h => h,
      fun _ _ _ => by simp [EnumRenaming.key]⟩ ok_id ok_id
    (unchecked_of (by decide +kernel)) (unchecked_of (by decide +kernel)) (by decide +kernel)).1 ⟨r, Rs.eq_ok_of_get? hr⟩⟩

example : (∃ r, parseDbml k!"Project p { } Enum e { a } Table t { x public.e [default: a] }" = .ok r) ↔
    ∃ r, parseDbml k!"Project p { } Enum e { a } Table t { x e [default: a] }" = .ok r :=
  C79_public (unchecked_of (by decide +kernel)) (unchecked_of (by decide +kernel)) (by decide +kernel)

end Dbml.Props

import Verif.Proofs.Appended
import Verif.Props.Kinds
import Verif.Props.Language
import Verif.Props.Shape

/-!
# C88: what is appended does not hide a mistake

The declarations of a text are looked at in stages. If the first mistake is one of stage `n`, and the declarations that are appended
are of kinds that come later, then the same mistake is reported.
-/

namespace Dbml.Props
open Dbml Spec

variable {t t' : Str} {s s' : SchemaBlock} {more : List TopLevelBlock}

/-- The checks of a stage pass iff the stage is in order, those before being so. -/
theorem stage_passes' (h : parseDbmlUnchecked t = .ok s) {n : Stage} (hr : n ≠ .refs) (hn : ∀ m : Stage, m.number < n.number → m.Ok s) :
    Passes (n.checks s) ↔ n.Ok s := by
  have hd := denotes h
  have hp : 0 < n.number → ProjectOk s := hn .project
  have ht : 1 < n.number → TablesOk s.tables := hn .tables
  have he : 2 < n.number → EnumsOk s.enums := hn .enums
  have hg : 3 < n.number → TableGroupsOk s s.table_groups := hn .groups
  have hk : 4 < n.number → ∀ t ∈ s.tables, KeysOk t := hn .keys
  have hc : 5 < n.number → ∀ c ∈ Spec.columns s, ColumnOk s c := hn .columns
  clear hn
  -- the analyzer gets as far as the stage
  have o1 := indexTable_out (s := s) (input := t) (K := NoK)
  have p1 : Passes (Stage.checks s .tables) ↔ TablesOk s.tables :=
    passes_iff indexTable_tells o1 (fun _ h => h.ok)
      (fun e sp ⟨pre, x, post, e1, _, h⟩ hk => tableDefect_not_ok h (e1 ▸ hk)) fun _ h => h.elim
  have g1 : TablesOk s.tables → ∃ ix, TInv s.tables ix := fun hok => by
    rcases indexTable_tells (s := s) (input := t) with ⟨ix, e, -⟩ | ⟨v, hv, -⟩
    · exact ⟨ix, o1.of_ok e⟩
    · exact absurd (p1.2 hok) hv.not_passes
  have p2 : TablesOk s.tables → (Passes (Stage.checks s .enums) ↔ EnumsOk s.enums) := fun hok => by
    obtain ⟨ix1, h1⟩ := g1 hok
    exact passes_iff (input := t) (indexEnums_tells h1.knows h1.groups) (indexEnums_out (K := NoK) h1.knows h1.groups) (fun _ h => h.ok)
      (fun e sp ⟨pre, x, post, e1, _, h⟩ hk => enumDefect_not_ok h (e1 ▸ hk)) fun _ h => h.elim
  have g2 : TablesOk s.tables → EnumsOk s.enums → ∃ ix, EInv s.tables s.enums ix := fun hok heok => by
    obtain ⟨ix1, h1⟩ := g1 hok
    rcases indexEnums_tells (s := s) (input := t) h1.knows h1.groups with ⟨ix, e, -⟩ | ⟨v, hv, -⟩
    · exact ⟨ix, (indexEnums_out (input := t) (K := NoK) h1.knows h1.groups).of_ok e⟩
    · exact absurd ((p2 hok).2 heok) hv.not_passes
  cases n with
  | project =>
    exact passes_iff (input := t) (checkProject_tells s) (checkProject_out (K := NoK)) (fun _ h => h)
      (fun e sp h => projectDefect_not_ok h) fun _ h => h.elim
  | tables => exact p1
  | enums => exact p2 (ht (by decide))
  | groups =>
    have ht := ht (by decide)
    obtain ⟨ix, h2⟩ := g2 ht (he (by decide))
    exact passes_iff (input := t) (indexGroups_tells h2.knows ht.aliases h2.groups) (indexGroups_out (K := NoK) h2.knows h2.groups)
      (fun _ h => ⟨h.names, h.items⟩)
      (fun e sp ⟨pre, x, post, e1, _, h⟩ hk => groupDefect_not_ok ht.aliases h (Eq.mp (congrArg (TableGroupsOk s) e1) hk)) fun _ h => h.elim
  | keys =>
    have ht := ht (by decide)
    have hone : ∀ x ∈ s.tables, (Passes (keyChecks x) ↔ KeysOk x) := fun x hx =>
      passes_iff (input := t) (checkTable_tells (ht.cols x hx)) (checkTable_out (K := NoK) (ht.cols x hx)) (fun _ h => tableChecked_ok h)
        (fun e sp h => keyDefect_not_ok h) fun _ h => h.elim
    constructor
    · intro hp x hx
      exact (hone x hx).1 fun c hc => hp c (List.mem_flatMap.2 ⟨x, hx, hc⟩)
    · intro hp
      exact passes_flatMap fun x hx => (hone x hx).2 (hp x hx)
  | columns =>
    have hp := hp (by decide)
    have ht := ht (by decide)
    have he := he (by decide)
    have hst : StructureOk s := structureOk_iff.2 ⟨hp, ht, he, hg (by decide), hk (by decide)⟩
    obtain ⟨ix, h2⟩ := g2 ht he
    have hraw : ∀ c ∈ Spec.columns s, ∃ n, HasRaw c n := fun c hc => parsed_raw hd hc
    have hpl : ∀ c ∈ Spec.columns s, DefaultPlaced c := fun c hc hdef =>
      parsed_default hd hc (fun st hs => hst.settings _ (mem_checked_col hc (by simp [hs]))) hdef
    exact passes_iff (input := t) (typeTables_tells h2.knows he.names hraw hpl) (typeTables_out h2.knows) (fun _ h c hc => (h.1 c hc).1)
      (fun e sp ⟨pre, c, post, e1, _, h⟩ hk => columnDefect_not_ok he.names h (hk c (by simp [e1])))
      (fun k ⟨pre, c, post, e1, _, h⟩ hk => by
        have hc : c ∈ Spec.columns s := by simp [e1]
        rcases h with ⟨-, h⟩ | ⟨-, h⟩ | ⟨-, h, h'⟩
        · exact columnPanics_not_ok h (hk c hc)
        · obtain ⟨n, hn⟩ := hraw c hc
          exact h n hn
        · obtain ⟨sp, hsp⟩ := hpl c hc h
          exact h' sp hsp)
  | refs => exact absurd rfl hr

theorem stage_passes (h : parseDbmlUnchecked t = .ok s) {n : Stage} (hn : ∀ m : Stage, m.number < n.number → m.Ok s) :
    Passes (n.checks s) ↔ n.Ok s := by
  by_cases hr : n = .refs
  · subst hr
    have hlt : ∀ m : Stage, m ≠ .refs → m.number < Stage.number .refs := by
      intro m hm
      cases m <;> first | exact absurd rfl hm | decide
    have hb : Passes (Stage.before .refs |>.flatMap (Stage.checks s)) := passes_flatMap fun m hm => by
      have hm := Stage.mem_before.1 hm
      have hmr : m ≠ .refs := by rintro rfl; exact absurd hm (by decide)
      exact (stage_passes' h hmr fun k hk => hn k (Nat.lt_trans hk hm)).2 (hn m hm)
    have he : checklist s = (Stage.before .refs).flatMap (Stage.checks s) ++ Stage.checks s .refs := by
      simp [checklist, Stage.before, Stage.checks]
    have hv := C67_valid h
    rw [he, passes_append] at hv
    constructor
    · exact fun hp => (C64_all_stages s).1 (hv.1 ⟨hb, hp⟩) .refs
    · intro hp
      refine (hv.2 ((C64_all_stages s).2 fun m => ?_)).2
      by_cases hm : m = .refs
      · rw [hm]; exact hp
      · exact hn m (hlt m hm)
  · exact stage_passes' h hr hn

/-- **C88.** The first mistake of a text is one of stage `n`. Another text declares the same, up to notes,
places, quotes and the like, and then more, all of kinds that come later: the report is the same, up to its place and what it quotes. -/
theorem C88_report_stays (h : parseDbmlUnchecked t = .ok s) (h' : parseDbmlUnchecked t' = .ok s')
    (hb : (core {} s').blocks = (core {} s).blocks ++ more) {n : Stage} (hn : ¬ n.Ok s)
    (hn' : ∀ m : Stage, m.number < n.number → m.Ok s) (hm : ∀ b ∈ more, n.Later b) :
    SameReport plainErr (parseDbml t) (parseDbml t') := by
  have hc : ∀ m : Stage, rep plainErr (m.checks (core {} s)) = rep plainErr (m.checks s) :=
    rep_stage ok_id plain_blind (.inl fun _ => rfl)
  have hp : ∀ m : Stage, m.number < n.number → Passes (m.checks (core {} s)) := fun m hmn => by
    rw [← rep_passes (π := plainErr), hc, rep_passes]
    exact (stage_passes h fun k hk => hn' k (Nat.lt_trans hk hmn)).2 (hn' m hmn)
  have hq : ¬ Passes (n.checks (core {} s)) := fun hq => by
    rw [← rep_passes (π := plainErr), hc, rep_passes] at hq
    exact hn ((stage_passes h hn').1 hq)
  have e := rep_later (π := plainErr) hb hm hp hq
  rw [rep_core ok_id plain_blind (.inl fun _ => rfl), rep_core ok_id plain_blind (.inl fun _ => rfl)] at e
  rcases report_rep plainErr h with ⟨h1, h2⟩ | ⟨e1, sp1, h1, h2⟩ | ⟨h1, h2⟩ <;>
    rcases report_rep plainErr h' with ⟨k1, k2⟩ | ⟨e2, sp2, k1, k2⟩ | ⟨k1, k2⟩ <;> rw [h1, k1] <;> rw [h2, k2] at e <;> first | cases e | skip
  · exact .accepted _ _
  · simp only [Option.some.injEq] at e
    exact .rejected _ _ _ _ e.symm
  · exact .crashed _

/-- **C88.** If what the texts have in common stands at the same places, and the mistake is not in the project, then the report is the very
same: the error with what it quotes, and its place. -/
theorem C88_same_place (h : parseDbmlUnchecked t = .ok s) (h' : parseDbmlUnchecked t' = .ok s')
    (hb : s'.blocks = s.blocks ++ more) {n : Stage} (hn : ¬ n.Ok s)
    (hn' : ∀ m : Stage, m.number < n.number → m.Ok s) (hm : ∀ b ∈ more, n.Later b) (hp : n ≠ .project) :
    parseDbml t' = parseDbml t := by
  have hpre : ∀ m : Stage, m.number < n.number → Passes (m.checks s) := fun m hmn =>
    (stage_passes h fun k hk => hn' k (Nat.lt_trans hk hmn)).2 (hn' m hmn)
  obtain ⟨v, hv⟩ := (passes_or_decides (n.checks s)).resolve_left fun hq => hn ((stage_passes h hn').1 hq)
  obtain ⟨h1, h2⟩ := decides_later hb hm hp hpre hv
  cases v with
  | error e sp => rw [(C67_error h e sp).2 h1, (C67_error h' e sp).2 h2]
  | crash => rw [(C67_crash h).2 h1, (C67_crash h').2 h2]

/-- **C88.** So too when one text is put after another: if the first mistake of the first text is one of stage `n`, and all that the second
declares is of kinds that come later, then the report on both together is that on the first. -/
theorem C88_joined (h : parseDbmlUnchecked t = .ok s) (h' : parseDbmlUnchecked t' = .ok s') (hc : ¬ k!"/*" <:+: t ∨ ¬ k!"*/" <:+: t')
    {n : Stage} (hn : ¬ n.Ok s) (hn' : ∀ m : Stage, m.number < n.number → m.Ok s) (hm : ∀ b ∈ s'.blocks, n.Later b) :
    SameReport plainErr (parseDbml t) (parseDbml (t ++ '\n' :: t')) := by
  obtain ⟨r, hr, e⟩ := C58_join t t' s s' h h' hc
  have key : ∀ bs : List TopLevelBlock, (bs.map (·.mapSpan noPos)).filterMap (Core.block {}) = bs.filterMap (Core.block {}) := fun bs => by
    rw [List.filterMap_map]
    exact List.filterMap_congr fun b _ => core_block ..
  have e1 := congrArg (List.filterMap (Core.block {})) e
  rw [List.filterMap_append, key, key, key] at e1
  refine C88_report_stays h hr (more := s'.blocks.filterMap (Core.block {})) e1 hn hn' ?_
  intro b hb
  obtain ⟨x, hx, hxb⟩ := List.mem_filterMap.1 hb
  have := hm x hx
  cases x <;> simp only [Core.block, Option.some.injEq, reduceCtorEq] at hxb <;> subst hxb <;> cases n <;> exact this

/-! ## Examples -/

/-- A name that is taken. -/
def exFirst : Str := k!"Project p {} Table t { id int [pk] } Table t { a int }"
/-- What is appended has mistakes of its own. -/
def exSecond : Str := k!"Table u { a int a int } Enum e { x x } TableGroup g { nowhere } Ref: t.no > u.no"

example : parseDbml exFirst = .err (.semantic .duplicateTableName ⟨43, 45⟩) ∧
    parseDbml (exFirst ++ '\n' :: exSecond) = .err (.semantic .duplicateTableName ⟨43, 45⟩) := by decide +kernel

/-- The hypotheses are met. -/
example : SameReport plainErr (parseDbml exFirst) (parseDbml (exFirst ++ '\n' :: exSecond)) := by
  obtain ⟨s, hs⟩ : ∃ s, parseDbmlUnchecked exFirst = .ok s := ⟨_, unchecked_of (by decide +kernel)⟩
  obtain ⟨s', hs'⟩ : ∃ s, parseDbmlUnchecked exSecond = .ok s := ⟨_, unchecked_of (by decide +kernel)⟩
  have he : parseDbml exFirst = .err (.semantic .duplicateTableName ⟨43, 45⟩) := by decide +kernel
  obtain ⟨n, h1, h2, h3⟩ := C64_error_tells hs he
  obtain rfl : n = .tables := by cases n <;> simp [Stage.Reports] at h1 ⊢
  refine C88_joined hs hs' (.inl (by decide +kernel)) h2 h3 fun b hb => ?_
  have hall : (parseDbmlUnchecked exSecond).get?.all (fun s => s.projects.isEmpty) = true := by decide +kernel
  rw [hs'] at hall
  have hproj : s'.projects = [] := by simpa [Rs.get?] using hall
  cases b with
  | project p =>
    have : p ∈ s'.projects := List.mem_filterMap.2 ⟨_, hb, rfl⟩
    rw [hproj] at this
    cases this
  | _ => trivial

/-- The condition is needed: a mistake in an enum is reported after one in a table, wherever the table stands. -/
example : parseDbml k!"Project p {} Enum e { x x }" = .err (.semantic .duplicateEnumValue ⟨24, 26⟩) ∧
    parseDbml (k!"Project p {} Enum e { x x }" ++ '\n' :: k!"Table u { a int a int }") = .err (.semantic .duplicateColumnName ⟨44, 50⟩) := by
  decide +kernel

/-- A ref that is wrong in itself may be reported for another reason, if another ref is appended: the first ref competes with it. -/
example : parseDbml k!"Project p {} Table t { a int [pk] b int } Ref: t.b > t.a Ref: t.a > t.c" = .err (.semantic .columnNotFound ⟨70, 71⟩) ∧
    parseDbml (k!"Project p {} Table t { a int [pk] b int } Ref: t.b > t.a Ref: t.a > t.c" ++ '\n' :: k!"Ref: t.b > t.a") =
      .err (.semantic .conflictRelation ⟨47, 57⟩) := by
  decide +kernel

end Dbml.Props

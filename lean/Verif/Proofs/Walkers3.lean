import Verif.Proofs.Walkers2
import Mathlib.Tactic.SplitIfs

/-!
# The tree walkers on ref statements, indexes and enums
-/

namespace Dbml
open Syntax

theorem ref_inline_emits : Emits G.ref_inline .nonAtomic (Node .ref_inline RefInlineD parseRefInline) := by
  refine emits_rule rfl ?_
  intro p rest kids h
  obtain ⟨p1, p2, k1, k2, rest1, rfl, h1, h2, hp1⟩ := seqP h
  obtain ⟨hkw, rfl⟩ := strP h1
  obtain ⟨p3, p4, k3, k4, rest3, rfl, h3, h4, hp2⟩ := seqP h2
  obtain ⟨hc, rfl⟩ := strP h3
  obtain ⟨p5, p6, k5, k6, rest5, rfl, h5, h6, hp3⟩ := seqP h4
  obtain ⟨pr, rfl, r, rfl, hrel, hrd, -⟩ := relation_emits.inv h5
  obtain ⟨pr, rfl, hr, hs, htx, hg⟩ := ref_ident_emits.inv h6
  have hparts : Parts .loose p _ := hp1 _ (hp2 _ (hp3 _ .one))
  have hg := hg.sub (parts_sub hparts _ (by simp))
  walk' [parseRefInline, hr, hrel]
  refine Good.bind hg fun i hi => ?_
  exact ⟨_, _, _, _, hparts, hkw, hc, hrd, hi, rfl⟩

theorem action_iff {w a} : ReferentialAction.fromStr w = some a ↔ (w, a) ∈ actions := by
  unfold ReferentialAction.fromStr actions
  split_ifs with h1 h2 h3 h4 h5
  iterate 5 (subst_vars; revert a; intro a; cases a <;> decide)
  simp [h1, h2, h3, h4, h5]

/-- The action an attribute value stands for. -/
def actionOf : Option Literal → Option ReferentialAction
  | some { value := .enum v, .. } => ReferentialAction.fromStr v
  | _ => none

/-- How an attribute changes the settings of a ref. -/
def relStep (acc : RefSettings) (a : Attribute) : RefSettings :=
  { acc with
    attributes := acc.attributes ++ [a]
    on_update := (if a.key.to_string = k!"update" then some (actionOf a.value) else none).getD acc.on_update
    on_delete := (if a.key.to_string = k!"delete" then some (actionOf a.value) else none).getD acc.on_delete }

/-- An attribute of a ref that is legitimate. -/
def RelAttrD (p : Piece) (a : Attribute) : Prop :=
  AttributeD p a ∧ (a.key.to_string = k!"update" ∨ a.key.to_string = k!"delete" →
    ∀ l w, a.value = some l → l.value = .enum w → ∃ x, (w, x) ∈ actions)

theorem refAction_good {m : Piece} {a : Attribute} {pr : Pair} (hs : pr.span = m.span)
    (ha : AttributeD m a) (hk : a.key.to_string = k!"update" ∨ a.key.to_string = k!"delete") :
    Good m (fun o => o = actionOf a.value ∧
      ∀ l w, a.value = some l → l.value = .enum w → ∃ x, (w, x) ∈ actions) (refAction a pr) := by
  unfold refAction
  split
  · rename_i v hv
    split
    · rename_i x hx
      refine ⟨by rw [hv]; exact hx.symm, ?_⟩
      intro l w h1 h2
      rw [hv] at h1
      cases h1
      cases h2
      exact ⟨x, action_iff.1 hx⟩
    · rename_i hx
      rw [throwMsg, hs]
      refine ReadErr.badAction (Syntax.Sub.refl _) ha hk hv rfl ?_
      intro x hx'
      rw [← action_iff, hx] at hx'
      cases hx'
  · rename_i hne
    refine ⟨?_, ?_⟩
    · cases hv : a.value with
      | none => rfl
      | some l =>
        obtain ⟨sp, raw, v⟩ := l
        cases v <;> first | rfl | exact absurd hv (hne _ _ _)
    · rintro ⟨sp, raw, v⟩ w h1 h2
      simp only at h2
      subst h2
      exact absurd h1 (hne _ _ _)

theorem rel_settings_emits :
    Emits G.rel_settings .nonAtomic (Node .rel_settings RefSettingsD parseRelSettings) := by
  refine emits_rule rfl ?_
  intro p rest kids h
  have h := attrs_inv h
  walk' [parseRelSettings]
  refine (foldlM_good bracketedD_layout (D := RelAttrD) (g := relStep) ?_ h _).mono ?_
  · rintro m pr b ⟨hr, hs, -, hg⟩
    simp only [hr]
    refine Good.bind hg fun a ha => ?_
    unfold applyRelAttr
    simp only []
    by_cases hu : a.key.to_string = k!"update"
    · simp only [hu, if_true, Rs.bind_def, Rs.bind_assoc, Rs.ok_bind, Rs.pure_def]
      refine Good.bind (refAction_good hs ha (.inl hu)) ?_
      rintro o ⟨rfl, hw⟩
      refine ⟨a, ⟨ha, fun _ => hw⟩, ?_⟩
      simp [relStep, hu]
    · by_cases hd : a.key.to_string = k!"delete"
      · simp only [hd, if_true, Rs.bind_def, Rs.bind_assoc, Rs.ok_bind, Rs.pure_def]
        rw [if_neg (by decide)]
        refine Good.bind (refAction_good hs ha (.inr hd)) ?_
        rintro o ⟨rfl, hw⟩
        refine ⟨a, ⟨ha, fun _ => hw⟩, ?_⟩
        simp [relStep, hd]
      · simp only [hu, hd, if_false, Rs.bind_def, Rs.ok_bind, Rs.pure_def]
        refine ⟨a, ⟨ha, fun h => absurd h (by simp [hu, hd])⟩, ?_⟩
        simp [relStep, hu, hd]
  · rintro s ⟨xs, hxs, rfl⟩
    have hattr : (xs.foldl relStep ({ span_range := p.span } : RefSettings)).attributes = xs := by
      rw [foldl_append' (proj := RefSettings.attributes) (sel := some) (by intro s x; rfl)]
      simp
    have hwf := layout_all bracketedD_layout (fun _ _ h => h.2) hxs
    refine ⟨?_, ?_, ?_, ?_⟩
    · rw [hattr]; exact layout_mono bracketedD_layout (fun _ _ h => h.1) hxs
    · rw [foldl_const (proj := RefSettings.span_range) (by intro s x; rfl)]
    · rw [hattr, foldl_last (proj := RefSettings.on_update) (fun s x => rfl), last_valuesOf rfl]
      unfold ActionIs
      split
      · rename_i w hl
        obtain ⟨a, h1, h2, h3⟩ := lastValue_mem hl
        obtain ⟨x, hx⟩ := hwf a h1 (.inl h2) _ _ h3 rfl
        exact ⟨x, hx, by rw [hl]; exact action_iff.2 hx⟩
      · rename_i hne
        cases hl : lastValue k!"update" xs with
        | none => rfl
        | some l =>
          obtain ⟨sp, raw, v⟩ := l
          cases v <;> first | rfl | exact absurd hl (hne _ _ _)
    · rw [hattr, foldl_last (proj := RefSettings.on_delete) (fun s x => rfl), last_valuesOf rfl]
      unfold ActionIs
      split
      · rename_i w hl
        obtain ⟨a, h1, h2, h3⟩ := lastValue_mem hl
        obtain ⟨x, hx⟩ := hwf a h1 (.inr h2) _ _ h3 rfl
        exact ⟨x, hx, by rw [hl]; exact action_iff.2 hx⟩
      · rename_i hne
        cases hl : lastValue k!"delete" xs with
        | none => rfl
        | some l =>
          obtain ⟨sp, raw, v⟩ := l
          cases v <;> first | rfl | exact absurd hl (hne _ _ _)

theorem ref_stmt_emits : Emits G.ref_stmt .nonAtomic (Node .ref_stmt
    (fun p r => RefStmtD p r ∧ r.name = none) parseRefStmt) := by
  refine emits_rule rfl ?_
  intro p rest kids h
  obtain ⟨p1, p2, k1, k2, rest1, rfl, h1, h2, hp1⟩ := seqP h
  obtain ⟨pr1, rfl, hr1, -, -, hg1⟩ := ref_ident_emits.inv h1
  obtain ⟨p3, p4, k3, k4, rest3, rfl, h3, h4, hp2⟩ := seqP h2
  obtain ⟨pr, rfl, r, rfl, hrel, hrd, hne⟩ := relation_emits.inv h3
  obtain ⟨p5, p6, k5, k6, rest5, rfl, h5, h6, hp3⟩ := seqP h4
  obtain ⟨pr2, rfl, hr2, -, -, hg2⟩ := ref_ident_emits.inv h5
  have hparts : Parts .loose p _ := hp1 _ (hp2 _ (hp3 _ .one))
  have hg1 := hg1.sub (parts_sub hparts _ (by simp))
  have hg2 := hg2.sub (parts_sub hparts _ (by simp))
  rcases optP rel_settings_emits h6 with ⟨he, rfl⟩ | ⟨pr3, rfl, hr3, -, -, hg3⟩
  · walk' [parseRefStmt, hr1, hr2, hrel]
    refine Good.bind hg1 fun i hi => ?_
    simp only [if_true, pure_bind, hne, if_false]
    refine Good.bind hg2 fun j hj => ?_
    exact ⟨⟨_, _, _, _, hparts, hi, hrd, hj, .inl ⟨he, rfl⟩, rfl⟩, rfl⟩
  · have hg3 := hg3.sub (parts_sub hparts _ (by simp))
    walk' [parseRefStmt, hr1, hr2, hr3, hrel]
    refine Good.bind hg1 fun i hi => ?_
    simp only [if_true, pure_bind, hne, if_false]
    refine Good.bind hg2 fun j hj => ?_
    refine Good.bind hg3 fun s hs => ?_
    exact ⟨⟨_, _, _, _, hparts, hi, hrd, hj, .inr ⟨s, hs, rfl⟩, rfl⟩, rfl⟩

theorem refInner_good {p name stmt : Piece} {rest nk pr}
    (hsub1 : Sub name p) (hsub2 : Sub stmt p)
    (h5 : MP (.opt G.ident) .nonAtomic name rest nk)
    (hn : Node .ref_stmt (fun p r => RefStmtD p r ∧ r.name = none) parseRefStmt stmt pr) :
    Good p (fun o => ∃ b : RefBlock, o = some b ∧ OptD (IdentD .loose) name b.name ∧ RefStmtD stmt b)
      (parseRefInner none (nk ++ [pr])) := by
  obtain ⟨hr, -, -, hg⟩ := hn
  have hg := hg.sub hsub2
  rcases optP (ident_emits na) h5 with ⟨he, rfl⟩ | ⟨pr1, rfl, hr1, -, -, hg1⟩
  · walk' [parseRefInner, hr]
    refine Good.map hg ?_
    rintro b ⟨⟨a1, a2, a3, a4, h1, h2, h3, h4, h5, h6⟩, hname⟩
    exact ⟨_, rfl, .inl ⟨he, rfl⟩, a1, a2, a3, a4, h1, h2, h3, h4, h5, h6⟩
  · have hg1 := hg1.sub hsub1
    walk' [parseRefInner, hr, hr1]
    refine Good.bind hg1 fun i hi => ?_
    refine Good.map hg ?_
    rintro b ⟨⟨a1, a2, a3, a4, h1, h2, h3, h4, h5, h6⟩, hname⟩
    exact ⟨_, rfl, .inr ⟨i, hi, rfl⟩, a1, a2, a3, a4, h1, h2, h3, h4, h5, h6⟩

theorem ref_emits : Emits G.ref_decl .nonAtomic (Node .ref_decl RefD parseRefDecl) := by
  refine emits_rule rfl ?_
  intro p rest kids h
  rcases altP h with h | h
  · obtain ⟨kids, rfl, hb⟩ := rule_inv h rfl
    obtain ⟨p1, p2, k1, k2, rest1, rfl, h1, h2, hp1⟩ := seqP hb
    obtain ⟨hkw, rfl⟩ := insensP h1
    obtain ⟨p3, p4, k3, k4, rest3, rfl, h3, h4, hp2⟩ := seqP h2
    obtain ⟨p5, p6, k5, k6, rest5, rfl, h5, h6, hp3⟩ := seqP h4
    obtain ⟨hl, rfl⟩ := strP h5
    obtain ⟨p7, p8, k7, k8, rest7, rfl, h7, h8, hp4⟩ := seqP h6
    obtain ⟨hr, rfl⟩ := strP h8
    obtain ⟨pr, rfl, hn⟩ := ref_stmt_emits.inv h7
    have hparts : Parts .loose p _ := hp1 _ (hp2 _ (hp3 _ (hp4 _ .one)))
    have := refInner_good (parts_sub hparts _ (by simp)) (parts_sub hparts _ (by simp)) h3 hn
    walk' [parseRefDecl, parseRefDecl.go]
    refine Good.bind this ?_
    rintro _ ⟨b, rfl, hname, hst⟩
    exact .inl ⟨_, _, _, _, _, hparts, hkw, hname, hl, hr, hst⟩
  · obtain ⟨kids, rfl, hb⟩ := rule_inv h rfl
    obtain ⟨p1, p2, k1, k2, rest1, rfl, h1, h2, hp1⟩ := seqP hb
    obtain ⟨hkw, rfl⟩ := insensP h1
    obtain ⟨p3, p4, k3, k4, rest3, rfl, h3, h4, hp2⟩ := seqP h2
    obtain ⟨p5, p6, k5, k6, rest5, rfl, h5, h6, hp3⟩ := seqP h4
    obtain ⟨hl, rfl⟩ := strP h5
    obtain ⟨pr, rfl, hn⟩ := ref_stmt_emits.inv h6
    have hparts : Parts .loose p _ := hp1 _ (hp2 _ (hp3 _ .one))
    have := refInner_good (parts_sub hparts _ (by simp)) (parts_sub hparts _ (by simp)) h3 hn
    walk' [parseRefDecl, parseRefDecl.go]
    refine Good.bind this ?_
    rintro _ ⟨b, rfl, hname, hst⟩
    exact .inr ⟨_, _, _, _, hparts, hkw, hname, hl, hst⟩

end Dbml

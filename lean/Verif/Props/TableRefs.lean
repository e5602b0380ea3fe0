import Verif.Props.Evolve
import Verif.Props.References

/-!
# C37, continued: the refs of all tables of an analyzed schema
-/

namespace Dbml.Props

open Dbml Spec Source

variable {s : SchemaBlock}

/-- The endpoint `e` of a reference is on the table `t`: its table name, replaced if it is an alias, is the name of `t`. -/
def EndsAt (s : SchemaBlock) (e : RefIdent) (t : TableBlock) : Prop := ∃ x, Unaliased s (endOf e) x ∧ Names s x t

/-- For a table of the schema, what `get_table_refs` compares is the specification's notion of the table an end is on. -/
theorem endOn_iff {a : AnalyzedIndexer} (h : analyze s = .ok a) {t : TableBlock} (ht : t ∈ s.tables) (e : RefIdent) :
    EndOn t.ident a.indexer e ↔ EndsAt s e t := by
  have hu := C39_resolve h e
  have ho := analyze_out s
  rw [h] at ho
  have hv : Valid s := ho.1
  unfold EndOn EndsAt
  constructor
  · rintro ⟨h1, h2⟩
    exact ⟨_, hu, ht, h1.symm, h2.symm⟩
  · rintro ⟨x, hx, -, h1, h2⟩
    have : x = endOf (a.indexer.resolveRefAlias e) := by
      rcases hx with ⟨y, hy, rfl⟩ | ⟨hy, rfl⟩ <;> rcases hu with ⟨z, hz, hz2⟩ | ⟨hz, hz2⟩
      · rw [hz2, nodup_filterMap_inj hv.tableNames.2.1 hy.1 hz.1 hy.2 hz.2]
      · exact absurd hy (hz y)
      · exact absurd hz (hy z)
      · exact hz2.symm
    subst this
    exact ⟨h1.symm, h2.symm⟩

theorem endsAt_unique (hv : Valid s) {e : RefIdent} {t u : TableBlock} (ht : EndsAt s e t) (hu : EndsAt s e u) : t = u := by
  obtain ⟨x, hx, hxt⟩ := ht
  obtain ⟨y, hy, hyt⟩ := hu
  have : x = y := by
    rcases hx with ⟨x, hx, rfl⟩ | ⟨hx, rfl⟩ <;> rcases hy with ⟨y, hy, rfl⟩ | ⟨hy, rfl⟩
    · rw [nodup_filterMap_inj hv.tableNames.2.1 hx.1 hy.1 hx.2 hy.2]
    · exact absurd hx (hy x)
    · exact absurd hy (hx y)
    · rfl
  subst this
  exact table_of_key hv.tableNames hxt.1 hyt.1 ((names_key hxt).trans (names_key hyt).symm)

/-- **C37**: in an analyzed schema every ref joins two tables, the same or not; it is listed as outgoing for its left
table and as incoming for its right table if they differ, as a self-reference for the table if they are the same, and
for no other table. -/
theorem C37_each_ref {a : AnalyzedIndexer} (h : analyze s = .ok a) {r : IndexedRef} (hr : r ∈ a.indexed_refs) :
    ∃ tl ∈ s.tables, ∃ tr ∈ s.tables, EndsAt s r.lhs tl ∧ EndsAt s r.rhs tr ∧ ∀ t ∈ s.tables,
      (r ∈ (getTableRefs t.ident a).ref_to ↔ t = tl ∧ t ≠ tr) ∧
      (r ∈ (getTableRefs t.ident a).ref_by ↔ t ≠ tl ∧ t = tr) ∧
      (r ∈ (getTableRefs t.ident a).ref_self ↔ t = tl ∧ t = tr) := by
  have ho := analyze_out s
  rw [h] at ho
  obtain ⟨hv, hk, -, hrefs, -⟩ := ho
  have hl : Spec.linkOf r ∈ links s := by rw [links_eq, ← hrefs]; exact List.mem_map_of_mem hr
  obtain ⟨-, -, l, r', tl, tr, ul, ur, nl, nr, -⟩ := hv.refs.1 _ hl
  have el : EndsAt s r.lhs tl := ⟨l, ul, nl⟩
  have er : EndsAt s r.rhs tr := ⟨r', ur, nr⟩
  refine ⟨tl, nl.1, tr, nr.1, el, er, fun t ht => ?_⟩
  have hL : EndOn t.ident a.indexer r.lhs ↔ t = tl := by
    rw [endOn_iff h ht]; exact ⟨fun x => endsAt_unique hv x el, fun x => x ▸ el⟩
  have hR : EndOn t.ident a.indexer r.rhs ↔ t = tr := by
    rw [endOn_iff h ht]; exact ⟨fun x => endsAt_unique hv x er, fun x => x ▸ er⟩
  obtain ⟨h1, h2, h3⟩ := C37_table_refs t.ident a
  refine ⟨?_, ?_, ?_⟩
  · rw [h2, List.mem_filter]; simp [hr, hL, hR]
  · rw [h3, List.mem_filter]; simp [hr, hL, hR]
  · rw [h1, List.mem_filter]; simp [hr, hL, hR]

theorem sum_countP {α β : Type} (P : α → β → Bool) (ts : List α) (rs : List β)
    (h : ∀ r ∈ rs, (ts.countP fun t => P t r) = 1) : (ts.map fun t => rs.countP (P t)).sum = rs.length := by
  induction rs with
  | nil =>
    show (ts.map fun _ => 0).sum = 0
    clear h
    induction ts with
    | nil => rfl
    | cons t ts ih => rw [List.map_cons, List.sum_cons, ih]
  | cons r rs ih =>
    have hr := h r (by simp)
    have hi := ih fun x hx => h x (by simp [hx])
    have hs : (ts.map fun t => (r :: rs).countP (P t)).sum =
        (ts.map fun t => rs.countP (P t)).sum + ts.countP fun t => P t r := by
      clear hi hr ih h
      induction ts with
      | nil => rfl
      | cons t ts ih =>
        rw [List.map_cons, List.sum_cons, ih, List.map_cons, List.sum_cons, List.countP_cons, List.countP_cons]
        generalize (if P t r = true then 1 else 0) = x
        omega
    rw [hs, hi, hr, List.length_cons]

theorem countP_one {α : Type} {l : List α} (hn : l.Nodup) {x : α} (hx : x ∈ l) {p : α → Bool}
    (hp : ∀ y ∈ l, p y = true ↔ y = x) : l.countP p = 1 := by
  induction l with
  | nil => simp at hx
  | cons y ys ih =>
    rw [List.nodup_cons] at hn
    rw [List.countP_cons]
    by_cases hy : y = x
    · subst hy
      have h0 : ys.countP p = 0 :=
        List.countP_eq_zero.2 fun z hz hpz => hn.1 ((hp z (List.mem_cons_of_mem _ hz)).1 hpz ▸ hz)
      rw [(hp y (by simp)).2 rfl, h0]
      rfl
    · have hyp : ¬ p y = true := fun hc => hy ((hp y (by simp)).1 hc)
      rw [ih hn.2 ((List.mem_cons.1 hx).resolve_left fun h => hy h.symm) fun z hz => hp z (by simp [hz])]
      simp [hyp]

/-- **C37**: summed over all tables of an analyzed schema, every ref is counted once at its left end and once at its right
end. -/
theorem C37_totals {a : AnalyzedIndexer} (h : analyze s = .ok a) :
    (s.tables.map fun t => (getTableRefs t.ident a).ref_to.length + (getTableRefs t.ident a).ref_self.length).sum =
      a.indexed_refs.length ∧
    (s.tables.map fun t => (getTableRefs t.ident a).ref_by.length + (getTableRefs t.ident a).ref_self.length).sum =
      a.indexed_refs.length := by
  have ho := analyze_out s
  rw [h] at ho
  obtain ⟨hv, hk, -, hrefs, -⟩ := ho
  have hnd : s.tables.Nodup := by
    have h0 := hv.tableNames.1
    unfold List.Nodup at h0 ⊢
    rw [List.pairwise_map] at h0
    exact h0.imp fun {a b} hne (he : a = b) => hne (by rw [he])
  have key : ∀ r ∈ a.indexed_refs, (∃ x ∈ s.tables, ∀ t ∈ s.tables, decide (EndOn t.ident a.indexer r.lhs) = true ↔ t = x) ∧
      ∃ x ∈ s.tables, ∀ t ∈ s.tables, decide (EndOn t.ident a.indexer r.rhs) = true ↔ t = x := by
    intro r hr
    obtain ⟨tl, htl, tr, htr, el, er, -⟩ := C37_each_ref h hr
    exact ⟨⟨tl, htl, fun t ht => by
        rw [decide_eq_true_iff, endOn_iff h ht]; exact ⟨fun x => endsAt_unique hv x el, fun x => x ▸ el⟩⟩,
      ⟨tr, htr, fun t ht => by
        rw [decide_eq_true_iff, endOn_iff h ht]; exact ⟨fun x => endsAt_unique hv x er, fun x => x ▸ er⟩⟩⟩
  have c1 := sum_countP (fun (t : TableBlock) (r : IndexedRef) => decide (EndOn t.ident a.indexer r.lhs)) s.tables
    a.indexed_refs fun r hr => by
      obtain ⟨x, hx, hp⟩ := (key r hr).1
      exact countP_one hnd hx hp
  have c2 := sum_countP (fun (t : TableBlock) (r : IndexedRef) => decide (EndOn t.ident a.indexer r.rhs)) s.tables
    a.indexed_refs fun r hr => by
      obtain ⟨x, hx, hp⟩ := (key r hr).2
      exact countP_one hnd hx hp
  have split : ∀ (rs : List IndexedRef) (p q : IndexedRef → Prop) [DecidablePred p] [DecidablePred q],
      (rs.filter fun r => p r ∧ ¬ q r).length + (rs.filter fun r => p r ∧ q r).length = rs.countP fun r => p r := by
    intro rs p q _ _
    induction rs with
    | nil => rfl
    | cons r rs ih =>
      simp only [List.filter_cons, List.countP_cons]
      by_cases hp : p r <;> by_cases hq : q r <;> simp [hp, hq] at ih ⊢ <;> omega
  constructor
  · rw [← c1]
    refine congrArg _ (List.map_congr_left fun t _ => ?_)
    obtain ⟨h1, h2, h3⟩ := C37_table_refs t.ident a
    rw [h1, h2]; exact split _ _ _
  · rw [← c2]
    refine congrArg _ (List.map_congr_left fun t _ => ?_)
    obtain ⟨h1, h2, h3⟩ := C37_table_refs t.ident a
    rw [h1, h3, ← split _ (fun r => EndOn t.ident a.indexer r.rhs) fun r => EndOn t.ident a.indexer r.lhs]
    simp only [and_comm]

/-- Two tables, one with an alias, a ref between them, a ref by alias and a self-reference. -/
def trText : Str := k!"Project p { }
Table s.one as o { id int [pk] up int [ref: > s.one.id] }
Table two { id int [ref: - o.id] x int }
Ref: two.x > o.id"

/-- The theorems apply to it: of its three refs one is a self-reference and two go from the second table to the first. -/
example : ((analyze (astOf trText)).get?.map fun a => (astOf trText).tables.map fun t =>
    ((getTableRefs t.ident a).ref_to.length, (getTableRefs t.ident a).ref_by.length,
      (getTableRefs t.ident a).ref_self.length)) = some [(0, 2, 1), (2, 0, 0)] := by decide +kernel

end Dbml.Props

import Verif.Spec.Rearranged
import Verif.Lemmas.Reread

/-!
# Lemmas on processes that are written down in another way
-/

set_option linter.unusedSectionVars false

namespace KMC

namespace Renaming
variable {n : Nat} {π ρ : Nat → Nat}

theorem symm (h : Renaming n π ρ) : Renaming n ρ π := ⟨h.back, h.there⟩

theorem inj (h : Renaming n π ρ) {i j : Nat} (hi : i < n) (hj : j < n) (e : π i = π j) : i = j := by
  rw [← (h.there i hi).2, ← (h.there j hj).2, e]

theorem rearranged {α : Type _} (h : Renaming n π ρ) {l l' : List α} (hl : Rearranged n π l l') : Rearranged n ρ l' l := by
  obtain ⟨h1, h2, h3⟩ := hl
  refine ⟨h2, h1, fun i hi => ?_⟩
  rw [← h3 (ρ i) (h.back i hi).1, (h.back i hi).2]

theorem perm_range (h : Renaming n π ρ) : ((List.range n).map π).Perm (List.range n) := by
  rw [List.perm_ext_iff_of_nodup]
  · intro x
    rw [List.mem_map]
    constructor
    · rintro ⟨a, ha, rfl⟩
      rw [List.mem_range] at ha ⊢
      exact (h.there a ha).1
    · intro hx
      rw [List.mem_range] at hx
      exact ⟨ρ x, List.mem_range.2 (h.back x hx).1, (h.back x hx).2⟩
  · refine List.Nodup.map_on ?_ List.nodup_range
    intro a ha b hb e
    exact h.inj (List.mem_range.1 ha) (List.mem_range.1 hb) e
  · exact List.nodup_range

end Renaming

theorem Rearranged.map {α β : Type _} {n : Nat} {π : Nat → Nat} {l l' : List α} (h : Rearranged n π l l') (f : α → β) :
    Rearranged n π (l.map f) (l'.map f) := by
  obtain ⟨h1, h2, h3⟩ := h
  refine ⟨by simpa using h1, by simpa using h2, fun i hi => ?_⟩
  rw [List.getElem?_map, List.getElem?_map, h3 i hi]

namespace PyProc

variable {K : Type _} [Field K] [LinearOrder K] {n : Nat} {π ρ : Nat → Nat} {cs cs' : List (Coord K)}
  {before after before' after' : List String}

/-- The row with its place renamed. -/
def Row.rename (π : Nat → Nat) (r : Row K) : Row K := { r with index := π r.index }

theorem rows_renamed (h : Renaming n π ρ) (hc : Rearranged n π cs cs') (hb : Rearranged n π before before')
    (ha : Rearranged n π after after') : ((rows cs before after).map (Row.rename π)).Perm (rows cs' before' after') := by
  have l1 : (rows cs before after).length = n := by rw [length_rows (by rw [hb.1, hc.1]) (by rw [ha.1, hc.1]), hc.1]
  have l2 : (rows cs' before' after').length = n := by rw [length_rows (by rw [hb.2.1, hc.2.1]) (by rw [ha.2.1, hc.2.1]), hc.2.1]
  have e1 : (rows cs' before' after').Perm ((List.range n).map fun i => (rows cs' before' after').getD (π i) ⟨0, "", "", 0⟩) := by
    have : rows cs' before' after' = (List.range n).map fun i => (rows cs' before' after').getD i ⟨0, "", "", 0⟩ := by
      apply List.ext_getElem?
      intro i
      by_cases hi : i < n
      · rw [List.getElem?_map, List.getElem?_range hi, Option.map_some, List.getD_eq_getElem?_getD,
          List.getElem?_eq_getElem (by omega)]
        rfl
      · rw [List.getElem?_eq_none (by omega), List.getElem?_eq_none (by simpa using hi)]
    conv_lhs => rw [this]
    have := (h.perm_range.map fun i => (rows cs' before' after').getD i ⟨0, "", "", 0⟩).symm
    rw [List.map_map] at this
    exact this
  refine List.Perm.trans ?_ e1.symm
  apply List.Perm.of_eq
  apply List.ext_getElem?
  intro i
  by_cases hi : i < n
  · have hπ := (h.there i hi).1
    have g1 := List.getElem?_eq_getElem (l := rows cs before after) (i := i) (by omega)
    have g2 := List.getElem?_eq_getElem (l := rows cs' before' after') (i := π i) (by omega)
    rw [List.getElem?_map, List.getElem?_map, List.getElem?_range hi, Option.map_some, List.getD_eq_getElem?_getD, g1, g2]
    obtain ⟨a1, a2, a3, a4⟩ := (rows_getElem? i _).1 g1
    obtain ⟨b1, b2, b3, b4⟩ := (rows_getElem? (π i) _).1 g2
    rw [hc.2.2 i hi, a1] at b1
    rw [hb.2.2 i hi, a2] at b2
    rw [ha.2.2 i hi, a3] at b3
    rw [Option.map_some, Option.getD_some, Option.some.injEq]
    generalize (rows cs before after)[i]'(by omega) = r at *
    generalize (rows cs' before' after')[π i]'(by omega) = r' at *
    obtain ⟨c, b, a, x⟩ := r
    obtain ⟨c', b', a', x'⟩ := r'
    simp only [Option.some.injEq] at b1 b2 b3 a4 b4
    unfold Row.rename
    rw [b1, b2, b3, b4, a4]
  · rw [List.getElem?_eq_none (by simpa using by omega), List.getElem?_eq_none (by simpa using hi)]

/-- With distinct places the sorted rows are the same up to their numbers. -/
theorem sortRows_renamed (h : Renaming n π ρ) (hc : Rearranged n π cs cs') (hb : Rearranged n π before before')
    (ha : Rearranged n π after after') (hd : cs.Nodup) :
    sortRows (rows cs' before' after') = (sortRows (rows cs before after)).map (Row.rename π) := by
  have hp : (sortRows (rows cs' before' after')).Perm ((sortRows (rows cs before after)).map (Row.rename π)) :=
    (sortRows_perm _).trans ((rows_renamed h hc hb ha).symm.trans ((sortRows_perm _).map _).symm)
  refine List.Perm.eq_of_pairwise (le := fun a b => a.key ≤ b.key) ?_ (sortRows_key _) ?_ hp
  · intro a b hma hmb h1 h2
    have hk := le_antisymm h1 h2
    unfold Row.key at hk
    simp only [toLex_inj, Prod.mk.injEq] at hk
    have hcc : a.coord = b.coord := Coord.ext hk.2.2.1 hk.2.2.2.1 hk.2.2.2.2.1
    have hma := hp.mem_iff.1 hma
    obtain ⟨r, hr, rfl⟩ := List.mem_map.1 hma
    obtain ⟨t, ht, rfl⟩ := List.mem_map.1 hmb
    obtain ⟨i, hi⟩ := List.mem_iff_getElem?.1 ((sortRows_perm _).mem_iff.1 hr)
    obtain ⟨j, hj⟩ := List.mem_iff_getElem?.1 ((sortRows_perm _).mem_iff.1 ht)
    have hi' := ((rows_getElem? i _).1 hi).1
    have hj' := ((rows_getElem? j _).1 hj).1
    have hcc : r.coord = t.coord := hcc
    rw [hcc] at hi'
    have : i = j := by
      obtain ⟨x1, x2⟩ := List.getElem?_eq_some_iff.1 hi'
      obtain ⟨y1, y2⟩ := List.getElem?_eq_some_iff.1 hj'
      exact (hd.getElem_inj_iff).1 (x2.trans y2.symm)
    subst this
    rw [hi] at hj
    rw [Option.some.inj hj]
  · rw [List.pairwise_map]
    exact sortRows_key _

/-- The new index of a renamed place. -/
theorem newIndex_renamed (h : Renaming n π ρ) {l : List (Row K)} (hl : l.length = n) (hi : ∀ r ∈ l, r.index < n) {m m' : Int}
    {i : Nat} (h1 : NamesPlace n m i) (h2 : NamesPlace n m' (π i)) : newIndex (l.map (Row.rename π)) m' = newIndex l m := by
  unfold newIndex
  rw [List.length_map, hl, pyIndex_of h1.1 h1.2, pyIndex_of h2.1 h2.2, ok_bind, ok_bind, List.findIdx?_map]
  have : l.findIdx? ((fun r => decide (r.index = π i)) ∘ Row.rename π) = l.findIdx? (fun r => decide (r.index = i)) := by
    clear hl
    induction l with
    | nil => rfl
    | cons r l ih =>
      rw [List.findIdx?_cons, List.findIdx?_cons, ih fun x hx => hi x (by simp [hx])]
      have : ((fun r : Row K => decide (r.index = π i)) ∘ Row.rename π) r = decide (r.index = i) := by
        show decide (π r.index = π i) = _
        rw [decide_eq_decide]
        exact ⟨fun e => h.inj (hi r (by simp)) h1.1 e, fun e => by rw [e]⟩
      rw [this]
  rw [this]

/-- The moves after sorting, if no place is moved twice. -/
theorem sortMoves_renamed (h : Renaming n π ρ) {l : List (Row K)} (hl : l.length = n) (hi : ∀ r ∈ l, r.index < n)
    {ms ms' : List (Int × Coord K)} {out : List (Nat × Coord K)} (hm : MovesRenamed n π ms ms') (ho : sortMoves l ms = .ok out)
    (hd : (out.map (·.1)).Nodup) : sortMoves (l.map (Row.rename π)) ms' = .ok out := by
  unfold sortMoves at ho ⊢
  obtain ⟨x, x1, x2⟩ := bind_ok.1 ho
  cases x2
  obtain ⟨q, hq, hf⟩ := hm
  have e1 : mapMM (fun m : Int × Coord K => do
      let j ← newIndex (l.map (Row.rename π)) m.1
      return (j, m.2)) q = .ok x := by
    rw [mapMM_ok_iff] at x1 ⊢
    clear hq hd ho
    induction hf generalizing x with
    | nil => cases x1; exact .nil
    | @cons m m' ms q hmm _ ih =>
      cases x1 with
      | @cons _ y _ x hy hx =>
        refine .cons ?_ (ih _ hx)
        obtain ⟨g1, i, g2, g3⟩ := hmm
        rw [newIndex_renamed h hl hi g2 g3, g1]
        exact hy
  rw [mapMM_ok_iff] at e1
  obtain ⟨y, y1, y2⟩ := List.perm_comp_forall₂ hq.symm e1
  rw [mapMM_ok_iff.2 y1, ok_bind]
  congr 1
  have : Std.Total (fun a b : Nat × Coord K => a.1 ≤ b.1) := ⟨fun a b => Nat.le_total _ _⟩
  have : IsTrans (Nat × Coord K) (fun a b => a.1 ≤ b.1) := ⟨fun a b c => Nat.le_trans⟩
  refine List.Perm.eq_of_pairwise (le := fun a b => a.1 ≤ b.1) ?_ (List.pairwise_insertionSort _ _)
    (List.pairwise_insertionSort _ _) ((List.perm_insertionSort _ _).trans (y2.trans (List.perm_insertionSort _ _).symm))
  intro a b hma hmb h1 h2
  have hma : a ∈ x.insertionSort (fun a b => a.1 ≤ b.1) := by
    rw [List.mem_insertionSort] at hma ⊢
    exact y2.mem_iff.1 hma
  exact List.inj_on_of_nodup_map hd hma hmb (le_antisymm h1 h2)

end PyProc
end KMC

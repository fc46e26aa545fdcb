import Verif.Model.Configuration
import Verif.Lemmas.Coord
import Verif.Lemmas.Monad
import Verif.Props.Basic

/-!
# The tolerance order of match list entries
-/

set_option linter.unusedSectionVars false

namespace KMC

variable {K : Type _} [Field K] [LinearOrder K]

/-- A point of a match list: distance and relative coordinate. -/
abbrev Pt (K : Type _) := K × Coord K

/-- A set of distances any two of which are equal or differ by at least the tolerance. -/
def Separated (S : K → Prop) : Prop := ∀ a b, S a → S b → a = b ∨ epsi ≤ |b - a|

/-- Order by distance, then x, then y, then z. -/
def ptBefore (p q : Pt K) : Prop :=
  p.1 < q.1 ∨ (p.1 = q.1 ∧ (p.2.x < q.2.x ∨ (p.2.x = q.2.x ∧ (p.2.y < q.2.y ∨
    (p.2.y = q.2.y ∧ p.2.z < q.2.z)))))

theorem ptBefore_irrefl (p : Pt K) : ¬ ptBefore p p := by
  simp [ptBefore]

theorem ptBefore_trans {p q r : Pt K} (h1 : ptBefore p q) (h2 : ptBefore q r) : ptBefore p r := by
  unfold ptBefore at *
  rcases h1 with h1 | ⟨e1, h1⟩ <;> rcases h2 with h2 | ⟨e2, h2⟩
  · exact .inl (h1.trans h2)
  · exact .inl (e2 ▸ h1)
  · exact .inl (e1 ▸ h2)
  · refine .inr ⟨e1.trans e2, ?_⟩
    have := (C06_strict_total_order (K := K)).2.1 p.2 q.2 r.2
    rw [C06_lexicographic, C06_lexicographic, C06_lexicographic] at this
    exact this h1 h2

theorem ptBefore_trichotomy (p q : Pt K) : ptBefore p q ∨ p = q ∨ ptBefore q p := by
  unfold ptBefore
  rcases lt_trichotomy p.1 q.1 with h | h | h
  · exact .inl (.inl h)
  · have := (C06_strict_total_order (K := K)).2.2 p.2 q.2
    rw [C06_lexicographic, C06_lexicographic, (C06_equality _ _).1] at this
    rcases this with h' | h' | h'
    · exact .inl (.inr ⟨h, h'.1⟩)
    · refine .inr (.inl (Prod.ext h (Coord.ext h'.2.1.1 h'.2.1.2.1 h'.2.1.2.2)))
    · exact .inr (.inr (.inr ⟨h.symm, h'.2.2⟩))
  · exact .inr (.inr (.inl h))

theorem ptBefore_asymm {p q : Pt K} (h1 : ptBefore p q) (h2 : ptBefore q p) : False :=
  ptBefore_irrefl p (ptBefore_trans h1 h2)

theorem ptLt_eq (d1 : K) (c1 : Coord K) (d2 : K) (c2 : Coord K) :
    ptLt d1 c1 d2 c2 = if |d2 - d1| < epsi then Coord.lt c1 c2 else decide (d1 < d2) := rfl

section
variable [IsStrictOrderedRing K]

theorem epsi_pos : (0 : K) < epsi := by unfold epsi; positivity

theorem ptLt_iff {S : K → Prop} (hS : Separated S) {p q : Pt K} (hp : S p.1) (hq : S q.1) :
    ptLt p.1 p.2 q.1 q.2 = true ↔ ptBefore p q := by
  rw [ptLt_eq]
  rcases hS p.1 q.1 hp hq with h | h
  · have : |q.1 - p.1| < epsi := by rw [h, sub_self, abs_zero]; exact epsi_pos
    rw [if_pos this, C06_lexicographic]
    unfold ptBefore
    simp [h]
  · rw [if_neg (not_lt.2 h), decide_eq_true_iff]
    unfold ptBefore
    constructor
    · exact .inl
    · rintro (h' | ⟨h', -⟩)
      · exact h'
      · rw [h', sub_self, abs_zero] at h
        exact absurd h (not_le.2 epsi_pos)

end

/-! ### Insertion sort under a relation that behaves on the elements of the list -/

section sort
variable {α : Type _}

theorem pairwise_orderedInsert_on (r : α → α → Prop) [DecidableRel r] (P : α → Prop)
    (htot : ∀ a b, P a → P b → r a b ∨ r b a) (htr : ∀ a b c, P a → P b → P c → r a b → r b c → r a c)
    (a : α) (ha : P a) : ∀ l : List α, (∀ b ∈ l, P b) → l.Pairwise r → (l.orderedInsert r a).Pairwise r
  | [], _, _ => by simp
  | b :: l, hP, h => by
    have hPb := hP b (by simp)
    have hPl : ∀ c ∈ l, P c := fun c hc => hP c (by simp [hc])
    rw [List.pairwise_cons] at h
    unfold List.orderedInsert
    split
    · next hab =>
      refine List.pairwise_cons.2 ⟨?_, List.pairwise_cons.2 h⟩
      intro c hc
      rcases List.mem_cons.1 hc with rfl | hc
      · exact hab
      · exact htr a b c ha hPb (hPl c hc) hab (h.1 c hc)
    · next hab =>
      refine List.pairwise_cons.2 ⟨?_, pairwise_orderedInsert_on r P htot htr a ha l hPl h.2⟩
      intro c hc
      rw [List.mem_orderedInsert] at hc
      rcases hc with rfl | hc
      · exact (htot _ b ha hPb).resolve_left hab
      · exact h.1 c hc

theorem pairwise_insertionSort_on (r : α → α → Prop) [DecidableRel r] (P : α → Prop)
    (htot : ∀ a b, P a → P b → r a b ∨ r b a) (htr : ∀ a b c, P a → P b → P c → r a b → r b c → r a c)
    (l : List α) (hP : ∀ b ∈ l, P b) : (l.insertionSort r).Pairwise r := by
  induction l with
  | nil => simp
  | cons a l ih =>
    rw [List.insertionSort_cons]
    refine pairwise_orderedInsert_on r P htot htr a (hP a (by simp)) _ ?_
      (ih fun b hb => hP b (by simp [hb]))
    intro b hb
    exact hP b (by simp [(List.mem_insertionSort r).1 hb])

theorem map_orderedInsert_key {β : Type _} (r : α → α → Prop) [DecidableRel r] (s : β → β → Prop)
    [DecidableRel s] (f : α → β) (h : ∀ a b, r a b ↔ s (f a) (f b)) (a : α) (l : List α) :
    (l.orderedInsert r a).map f = (l.map f).orderedInsert s (f a) := by
  induction l with
  | nil => simp
  | cons b l ih =>
    simp only [List.orderedInsert, List.map_cons]
    by_cases hab : r a b
    · simp [hab, (h a b).1 hab]
    · simp [hab, mt (h a b).2 hab, ih]

/-- Sorting by a key commutes with taking the keys. -/
theorem map_insertionSort_key {β : Type _} (r : α → α → Prop) [DecidableRel r] (s : β → β → Prop)
    [DecidableRel s] (f : α → β) (h : ∀ a b, r a b ↔ s (f a) (f b)) (l : List α) :
    (l.insertionSort r).map f = (l.map f).insertionSort s := by
  induction l with
  | nil => simp
  | cons a l ih =>
    rw [List.insertionSort_cons, List.map_cons, List.insertionSort_cons,
      map_orderedInsert_key r s f h, ih]
end sort

/-- The point of a configuration entry. -/
def CEntry.pt (e : CEntry K) : Pt K := (e.distance, e.coord)
/-- The point of a process entry. -/
def PEntry.pt (e : PEntry K) : Pt K := (e.distance, e.coord)

theorem CEntry.lt_eq (a b : CEntry K) : CEntry.lt a b = ptLt a.pt.1 a.pt.2 b.pt.1 b.pt.2 := rfl
theorem PEntry.lt_eq (a b : PEntry K) : PEntry.lt a b = ptLt a.pt.1 a.pt.2 b.pt.1 b.pt.2 := rfl

/-- Sorting points. -/
def sortPts (l : List (Pt K)) : List (Pt K) :=
  l.insertionSort (fun a b => ptLt b.1 b.2 a.1 a.2 = false)

theorem pts_sortC (l : List (CEntry K)) : (sortC l).map CEntry.pt = sortPts (l.map CEntry.pt) := by
  unfold sortC sortPts
  exact map_insertionSort_key (fun a b : CEntry K => CEntry.lt b a = false)
    (fun a b : Pt K => ptLt b.1 b.2 a.1 a.2 = false) CEntry.pt (fun _ _ => Iff.rfl) l

theorem pts_sortP (l : List (PEntry K)) : (sortP l).map PEntry.pt = sortPts (l.map PEntry.pt) := by
  unfold sortP sortPts
  exact map_insertionSort_key (fun a b : PEntry K => PEntry.lt b a = false)
    (fun a b : Pt K => ptLt b.1 b.2 a.1 a.2 = false) PEntry.pt (fun _ _ => Iff.rfl) l

theorem perm_sortC (l : List (CEntry K)) : (sortC l).Perm l := List.perm_insertionSort _ l
theorem perm_sortP (l : List (PEntry K)) : (sortP l).Perm l := List.perm_insertionSort _ l
theorem perm_sortPts (l : List (Pt K)) : (sortPts l).Perm l := List.perm_insertionSort _ l

section
variable [IsStrictOrderedRing K]

theorem sortPts_pairwise {S : K → Prop} (hS : Separated S) (l : List (Pt K)) (hl : ∀ p ∈ l, S p.1) :
    (sortPts l).Pairwise (fun p q => ptBefore p q ∨ p = q) := by
  have := pairwise_insertionSort_on (fun a b : Pt K => ptLt b.1 b.2 a.1 a.2 = false) (fun p => S p.1)
    ?_ ?_ l hl
  · refine List.Pairwise.imp_of_mem ?_ this
    intro p q hp hq h
    have hp' := hl p ((List.mem_insertionSort _).1 hp)
    have hq' := hl q ((List.mem_insertionSort _).1 hq)
    rw [← Bool.not_eq_true, ptLt_iff hS hq' hp'] at h
    rcases ptBefore_trichotomy p q with h' | h' | h'
    · exact .inl h'
    · exact .inr h'
    · exact absurd h' h
  · intro a b ha hb
    rw [← Bool.not_eq_true, ← Bool.not_eq_true, ptLt_iff hS hb ha, ptLt_iff hS ha hb]
    by_contra hc
    push Not at hc
    exact ptBefore_asymm hc.1 hc.2
  · intro a b c ha hb hc
    rw [← Bool.not_eq_true, ← Bool.not_eq_true, ← Bool.not_eq_true, ptLt_iff hS hb ha,
      ptLt_iff hS hc hb, ptLt_iff hS hc ha]
    intro h1 h2 h3
    rcases ptBefore_trichotomy a b with h | h | h
    · exact h2 (ptBefore_trans h3 h)
    · subst h; exact h2 h3
    · exact h1 h

theorem pairwise_map_pt {α : Type _} (f : α → Pt K) (l : List α) (R : Pt K → Pt K → Prop)
    (h : (l.map f).Pairwise R) : l.Pairwise (fun a b => R (f a) (f b)) := List.pairwise_map.1 h

theorem nodup_of_strict {l : List (Pt K)} (h : l.Pairwise ptBefore) : l.Nodup := by
  refine List.Pairwise.imp ?_ h
  rintro a b hab rfl
  exact ptBefore_irrefl _ hab

/-- Two strictly ordered lists of points with the same members are equal. -/
theorem strict_ext {l1 l2 : List (Pt K)} (h1 : l1.Pairwise ptBefore) (h2 : l2.Pairwise ptBefore)
    (h : ∀ p, p ∈ l1 ↔ p ∈ l2) : l1 = l2 := by
  have hn1 : l1.Nodup := nodup_of_strict h1
  have hn2 : l2.Nodup := nodup_of_strict h2
  exact List.Perm.eq_of_pairwise (fun a b _ _ ha hb => (ptBefore_asymm ha hb).elim) h1 h2
    ((List.perm_ext_iff_of_nodup hn1 hn2).2 h)

end

end KMC

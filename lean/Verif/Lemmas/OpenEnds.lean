import Verif.Lemmas.Matching
import Verif.Lemmas.Translation

/-!
# Matching at sites that see only a part of what the central site sees
-/

set_option linter.unusedSectionVars false

namespace KMC

section
variable {α : Type _}

/-- A strictly ordered list that is contained in another one is a sublist of it. -/
theorem sublist_of_subset_of_pairwise {R : α → α → Prop} (hirr : ∀ a, ¬ R a a)
    (hasym : ∀ a b, R a b → R b a → False) {xs ys : List α} (hx : xs.Pairwise R) (hy : ys.Pairwise R)
    (h : ∀ a ∈ xs, a ∈ ys) : xs.Sublist ys := by
  induction ys generalizing xs with
  | nil =>
    have : xs = [] := List.eq_nil_iff_forall_not_mem.2 fun a ha => by simpa using h a ha
    subst this
    exact .slnil
  | cons y ys ih =>
    cases xs with
    | nil => exact List.nil_sublist _
    | cons x xs =>
      obtain ⟨hx1, hx2⟩ := List.pairwise_cons.1 hx
      obtain ⟨hy1, hy2⟩ := List.pairwise_cons.1 hy
      by_cases hxy : x = y
      · subst hxy
        refine (ih hx2 hy2 fun a ha => ?_).cons_cons _
        rcases List.mem_cons.1 (h a (by simp [ha])) with rfl | h'
        · exact absurd (hx1 a ha) (hirr a)
        · exact h'
      · have hxm : x ∈ ys := by
          rcases List.mem_cons.1 (h x (by simp)) with h' | h'
          · exact absurd h' hxy
          · exact h'
        refine (ih hx hy2 fun a ha => ?_).cons _
        rcases List.mem_cons.1 (h a ha) with rfl | h'
        · rcases List.mem_cons.1 ha with rfl | ha'
          · exact absurd rfl hxy
          · exact (hasym _ _ (hx1 _ ha') (hy1 _ hxm)).elim
        · exact h'

theorem Sublist.index_le {xs ys : List α} (h : xs.Sublist ys) (hn : ys.Nodup) {i j : Nat} {a : α}
    (hi : xs[i]? = some a) (hj : ys[j]? = some a) : i ≤ j := by
  induction h generalizing i j with
  | slnil => simp at hi
  | @cons xs ys y h ih =>
    obtain ⟨hn1, hn2⟩ := List.nodup_cons.1 hn
    cases j with
    | zero =>
      simp only [List.getElem?_cons_zero, Option.some.injEq] at hj
      subst hj
      exact absurd (h.subset (List.mem_of_getElem? hi)) hn1
    | succ j => have := ih hn2 hi (by simpa using hj); omega
  | @cons_cons xs ys y h ih =>
    obtain ⟨hn1, hn2⟩ := List.nodup_cons.1 hn
    cases i with
    | zero => omega
    | succ i =>
      cases j with
      | zero =>
        simp only [List.getElem?_cons_zero, Option.some.injEq] at hj
        subst hj
        exact absurd (h.subset (List.mem_of_getElem? (by simpa using hi))) hn1
      | succ j => have := ih hn2 (by simpa using hi) (by simpa using hj); omega

/-- If a sublist has the same element at the same place then it agrees up to there. -/
theorem Sublist.take_of_getElem? {xs ys : List α} (h : xs.Sublist ys) (hn : ys.Nodup) {k : Nat} {a : α}
    (hi : xs[k]? = some a) (hj : ys[k]? = some a) : xs.take (k + 1) = ys.take (k + 1) := by
  induction h generalizing k with
  | slnil => simp at hi
  | @cons xs ys y h ih =>
    obtain ⟨hn1, hn2⟩ := List.nodup_cons.1 hn
    cases k with
    | zero =>
      simp only [List.getElem?_cons_zero, Option.some.injEq] at hj
      subst hj
      exact absurd (h.subset (List.mem_of_getElem? hi)) hn1
    | succ k =>
      have := Sublist.index_le h hn2 hi (by simpa using hj)
      omega
  | @cons_cons xs ys y h ih =>
    obtain ⟨hn1, hn2⟩ := List.nodup_cons.1 hn
    cases k with
    | zero => simp
    | succ k =>
      rw [List.take_succ_cons, List.take_succ_cons, ih hn2 (by simpa using hi) (by simpa using hj)]

/-- If a sublist has all elements of a beginning then it has this beginning. -/
theorem Sublist.take_of_mem {xs ys : List α} (h : xs.Sublist ys) (hn : ys.Nodup) {k : Nat}
    (hm : ∀ a ∈ ys.take k, a ∈ xs) : xs.take k = ys.take k := by
  induction h generalizing k with
  | slnil => simp
  | @cons xs ys y h ih =>
    obtain ⟨hn1, hn2⟩ := List.nodup_cons.1 hn
    cases k with
    | zero => simp
    | succ k => exact absurd (h.subset (hm y (by simp))) hn1
  | @cons_cons xs ys y h ih =>
    obtain ⟨hn1, hn2⟩ := List.nodup_cons.1 hn
    cases k with
    | zero => simp
    | succ k =>
      rw [List.take_succ_cons, List.take_succ_cons, ih hn2]
      intro a ha
      rcases List.mem_cons.1 (hm a (by simp [ha])) with rfl | h'
      · exact absurd (List.mem_of_mem_take ha) hn1
      · exact h'

end

variable {K : Type _} [Field K] [LinearOrder K]

/-- If the merged list is not longer than the list of the centre, it ends with the last explicit entry
at its point. -/
theorem Aligned.ends {ps : List (PEntry K)} {cs : List (CEntry K)} {al} (h : Aligned ps cs al)
    (hl : al.length ≤ cs.length) :
    Aligned ps (cs.take al.length) al ∧ (∀ p ∈ ps, ∃ c ∈ cs.take al.length, samePoint p c = true) ∧
    ∀ last, ps.getLast? = some last → ∃ k c, al.length = k + 1 ∧ cs[k]? = some c ∧
      al[k]? = some last ∧ samePoint last c = true := by
  induction h with
  | nil => exact ⟨.nil _, by simp, by simp⟩
  | rest p ps => simp at hl
  | @skip p ps c cs al hsp hne _ ih =>
    obtain ⟨h1, h2, h3⟩ := ih (by simpa using hl)
    refine ⟨.skip hsp hne h1, ?_, ?_⟩
    · intro q hq
      obtain ⟨d, hd, h⟩ := h2 q hq
      exact ⟨d, by simp [hd], h⟩
    · intro last hlast
      obtain ⟨k, d, e1, e2, e3, e4⟩ := h3 last hlast
      exact ⟨k + 1, d, by simp [e1], by simpa using e2, by simpa using e3, e4⟩
  | @take p ps c cs al hsp hal ih =>
    obtain ⟨h1, h2, h3⟩ := ih (by simpa using hl)
    refine ⟨.take hsp h1, ?_, ?_⟩
    · intro q hq
      rcases List.mem_cons.1 hq with rfl | hq
      · exact ⟨c, by simp, hsp⟩
      · obtain ⟨d, hd, h⟩ := h2 q hq
        exact ⟨d, by simp [hd], h⟩
    · intro last hlast
      cases ps with
      | nil =>
        cases hal
        simp only [List.getLast?_singleton, Option.some.injEq] at hlast
        subst hlast
        exact ⟨0, c, rfl, rfl, rfl, hsp⟩
      | cons q ps =>
        rw [List.getLast?_cons_cons] at hlast
        obtain ⟨k, d, e1, e2, e3, e4⟩ := h3 last hlast
        exact ⟨k + 1, d, by simp [e1], by simpa using e2, by simpa using e3, e4⟩

/-- If all explicit entries sit at points of the centre, the merged list is not longer. -/
theorem Aligned.short {ps : List (PEntry K)} {cs : List (CEntry K)} {al} (h : Aligned ps cs al)
    (hcompat : Compat ps (cs.map CEntry.pt)) (hall : ∀ p ∈ ps, ∃ c ∈ cs, samePoint p c = true) :
    al.length ≤ cs.length := by
  induction h with
  | nil => simp
  | rest p ps => obtain ⟨c, hc, -⟩ := hall p (by simp); simp at hc
  | @skip p ps c cs al hsp hne _ ih =>
    have hp : ∃ c' ∈ cs, samePoint p c' = true := by
      obtain ⟨c', hc', h⟩ := hall p (by simp)
      rcases List.mem_cons.1 hc' with rfl | hc'
      · rw [hsp] at h; cases h
      · exact ⟨c', hc', h⟩
    obtain ⟨cp, hcp, hcp1⟩ := hp
    have := ih hcompat.tail (by
      intro q hq
      obtain ⟨c', hc', h⟩ := hall q hq
      rcases List.mem_cons.1 hc' with rfl | hc'
      · rcases List.mem_cons.1 hq with rfl | hq'
        · exact ⟨cp, hcp, hcp1⟩
        · exfalso
          obtain ⟨l, hl, hl'⟩ := List.getElem_of_mem hcp
          have := (List.pairwise_cons.1 hcompat).1 q hq' (l + 1) 0 cp.pt c'.pt
            (by simp [hl, hl']) (by simp) hcp1 h
          omega
      · exact ⟨c', hc', h⟩)
    simpa using this
  | @take p ps c cs al hsp hal ih =>
    have := ih (List.pairwise_cons.1 hcompat.tail).2 (by
      intro q hq
      obtain ⟨c', hc', h⟩ := hall q (by simp [hq])
      rcases List.mem_cons.1 hc' with rfl | hc'
      · exfalso
        have := (List.pairwise_cons.1 hcompat).1 q hq 0 0 c'.pt c'.pt (by simp) (by simp) hsp h
        omega
      · exact ⟨c', hc', h⟩)
    simpa using this

/-- Matching at a site that sees only points that the centre sees as well: each explicit entry must fit
at its point, and nothing that comes before the last entry may be missing. -/
theorem aligned_match_within [IsStrictOrderedRing K] {ps : List (PEntry K)} {cs env : List (CEntry K)} {al}
    (h : Aligned ps cs al) {last : PEntry K} (hlast : ps.getLast? = some last) (hw : ¬ last.Wild)
    (hcs : (cs.map CEntry.pt).Pairwise ptBefore) (henv : (env.map CEntry.pt).Pairwise ptBefore)
    (hsub : ∀ q ∈ env.map CEntry.pt, q ∈ cs.map CEntry.pt)
    (hps : (ps.map PEntry.pt).Pairwise ptBefore)
    (hex : ∀ p ∈ ps, ∀ c ∈ cs, samePoint p c = true → p.pt = c.pt)
    (hcompat : Compat ps (cs.map CEntry.pt)) :
    (∃ e1 e2, env = e1 ++ e2 ∧ List.Forall₂ Fits al e1) ↔
      (∀ p ∈ ps, ∃ c ∈ env, samePoint p c = true ∧ Fits p c) ∧
      ∀ q ∈ cs.map CEntry.pt, ptBefore q last.pt → q ∈ env.map CEntry.pt := by
  have hS : (env.map CEntry.pt).Sublist (cs.map CEntry.pt) :=
    sublist_of_subset_of_pairwise ptBefore_irrefl (fun a b => ptBefore_asymm) henv hcs hsub
  have hnd := nodup_of_strict hcs
  have hex' : ∀ p ∈ ps, ∀ c ∈ env, samePoint p c = true → p.pt = c.pt := by
    intro p hp c hc hsp
    obtain ⟨d, hd, hdc⟩ := List.mem_map.1 (hsub c.pt (List.mem_map_of_mem hc))
    rw [← hdc]
    refine hex p hp d hd ?_
    rw [samePoint_eq, hdc, ← samePoint_eq]
    exact hsp
  have hone : OneSite ps env := by
    intro p hp c hc d hd h1 h2
    have e : c.pt = d.pt := by rw [← hex' p hp c hc h1, ← hex' p hp d hd h2]
    have : c = d := List.inj_on_of_nodup_map (nodup_of_strict henv) hc hd e
    rw [this]
  have hlm : last ∈ ps := List.mem_of_getLast? hlast
  have sub_take : ∀ m, OneSite ps (env.take m) := fun m p hp c hc d hd =>
    hone p hp c (List.mem_of_mem_take hc) d (List.mem_of_mem_take hd)
  have compat_take : ∀ m, Compat ps ((cs.take m).map CEntry.pt) := by
    intro m
    refine List.Pairwise.imp ?_ hcompat
    intro p q hpq k l c d hk hl
    rw [List.map_take, List.getElem?_take] at hk hl
    split_ifs at hk hl
    exact hpq k l c d hk hl
  constructor
  · rintro ⟨e1, e2, he, hf⟩
    have hlen : al.length ≤ cs.length := by
      have h1 := hf.length_eq
      have h2 := hS.length_le
      rw [he] at h2
      simp at h2
      omega
    obtain ⟨hal, -, hend⟩ := h.ends hlen
    obtain ⟨k, c, hk, hc, hak, hsp⟩ := hend last hlast
    have hk1 : k < e1.length := by rw [← hf.length_eq]; omega
    have hfit : Fits last e1[k] := by
      have := List.Forall₂.get hf (i := k) (by omega) hk1
      simp only [List.get_eq_getElem] at this
      rw [List.getElem?_eq_getElem (by omega), Option.some.injEq] at hak
      rwa [hak] at this
    have hek : env[k]? = some e1[k] := by
      rw [he, List.getElem?_append_left hk1, List.getElem?_eq_getElem hk1]
    rcases hfit with hwild | ⟨hsp', -⟩
    · exact absurd hwild hw
    have hpt : e1[k].pt = last.pt := (hex' last hlm _ (List.mem_of_getElem? hek) hsp').symm
    have hcpt : c.pt = last.pt := (hex last hlm c (List.mem_of_getElem? hc) hsp).symm
    have htake := Sublist.take_of_getElem? hS hnd (k := k) (a := last.pt)
      (by rw [List.getElem?_map, hek]; simp [hpt]) (by rw [List.getElem?_map, hc]; simp [hcpt])
    rw [hk] at hal
    have hm := (aligned_match hal (env := env.take (k + 1)) (by rw [List.map_take, htake, List.map_take])
      (compat_take _) (sub_take _)).1 (by
        refine ⟨e1, [], ?_, hf⟩
        rw [List.append_nil, he, List.take_append_of_le_length (by omega), List.take_of_length_le]
        rw [← hf.length_eq]; omega)
    refine ⟨?_, ?_⟩
    · intro p hp
      obtain ⟨c', hc', h'⟩ := hm p hp
      exact ⟨c', List.mem_of_mem_take hc', h'⟩
    · intro q hq hbef
      obtain ⟨i, hi, hi'⟩ := List.getElem_of_mem hq
      have hki : i < k := by
        by_contra hc'
        have hkl : k < (cs.map CEntry.pt).length := by
          obtain ⟨h', -⟩ := List.getElem?_eq_some_iff.1 hc; simpa using h'
        have hkv : (cs.map CEntry.pt)[k] = last.pt := by
          have : (cs.map CEntry.pt)[k]? = some last.pt := by rw [List.getElem?_map, hc]; simp [hcpt]
          rw [List.getElem?_eq_getElem hkl, Option.some.injEq] at this
          exact this
        rcases Nat.lt_or_ge k i with hlt | hge
        · have := List.pairwise_iff_getElem.1 hcs k i hkl hi hlt
          rw [hkv, hi'] at this
          exact ptBefore_asymm this hbef
        · have : i = k := by omega
          subst this
          rw [hkv] at hi'
          rw [← hi'] at hbef
          exact ptBefore_irrefl _ hbef
      have : q ∈ (cs.map CEntry.pt).take (k + 1) := by
        rw [← hi']
        exact List.mem_take_iff_getElem.2 ⟨i, by omega, rfl⟩
      rw [← htake] at this
      exact List.mem_of_mem_take this
  · rintro ⟨hpat, hcomp⟩
    have hfound : ∀ p ∈ ps, ∃ c ∈ cs, samePoint p c = true := by
      intro p hp
      obtain ⟨c, hc, hsp, -⟩ := hpat p hp
      obtain ⟨d, hd, hdc⟩ := List.mem_map.1 (hsub c.pt (List.mem_map_of_mem hc))
      refine ⟨d, hd, ?_⟩
      rw [samePoint_eq, hdc, ← samePoint_eq]
      exact hsp
    obtain ⟨hal, hfind, hend⟩ := h.ends (h.short hcompat hfound)
    obtain ⟨k, c, hk, hc, hak, hsp⟩ := hend last hlast
    have hcpt : c.pt = last.pt := (hex last hlm c (List.mem_of_getElem? hc) hsp).symm
    have hkl : k < (cs.map CEntry.pt).length := by
      obtain ⟨h', -⟩ := List.getElem?_eq_some_iff.1 hc; simpa using h'
    have hkv : (cs.map CEntry.pt)[k] = last.pt := by
      have : (cs.map CEntry.pt)[k]? = some last.pt := by rw [List.getElem?_map, hc]; simp [hcpt]
      rw [List.getElem?_eq_getElem hkl, Option.some.injEq] at this
      exact this
    have htake := Sublist.take_of_mem hS hnd (k := k + 1) (by
      intro q hq
      obtain ⟨i, hi, hi'⟩ := List.mem_take_iff_getElem.1 hq
      rcases Nat.lt_or_ge i k with hlt | hge
      · apply hcomp q (by rw [← hi']; exact List.getElem_mem _)
        have := List.pairwise_iff_getElem.1 hcs i k (by omega) hkl hlt
        rwa [hkv, hi'] at this
      · have : i = k := by omega
        subst this
        rw [hkv] at hi'
        obtain ⟨d, hd, hsp', -⟩ := hpat last hlm
        rw [← hi', hex' last hlm d hd hsp']
        exact List.mem_map_of_mem hd)
    rw [hk] at hal hfind
    obtain ⟨e1, e2, he, hf⟩ := (aligned_match hal (env := env.take (k + 1))
      (by rw [List.map_take, htake, List.map_take]) (compat_take _) (sub_take _)).2 (by
        intro p hp
        obtain ⟨d, hd, hspd⟩ := hfind p hp
        obtain ⟨c', hc', hsp', hfit⟩ := hpat p hp
        have hdm : d.pt ∈ (env.take (k + 1)).map CEntry.pt := by
          rw [List.map_take, htake, ← List.map_take]
          exact List.mem_map_of_mem hd
        obtain ⟨x, hx, hxd⟩ := List.mem_map.1 hdm
        have hspx : samePoint p x = true := by
          rw [samePoint_eq, hxd, ← samePoint_eq]; exact hspd
        refine ⟨x, hx, hspx, ?_⟩
        have ht := hone p hp c' hc' x (List.mem_of_mem_take hx) hsp' hspx
        rcases hfit with h' | ⟨-, h'⟩
        · exact .inl h'
        · exact .inr ⟨hspx, by rw [← ht]; exact h'⟩)
    refine ⟨e1, e2 ++ env.drop (k + 1), ?_, hf⟩
    rw [← List.append_assoc, ← he, List.take_append_drop]

/-- The entries of a merged list are the explicit ones and wildcards. -/
theorem Aligned.mem {ps : List (PEntry K)} {cs : List (CEntry K)} {al} (h : Aligned ps cs al) :
    ∀ p ∈ al, p ∈ ps ∨ p.Wild := by
  induction h with
  | nil => simp
  | rest p ps => intro q hq; exact .inl hq
  | @skip p ps c cs al hsp hne _ ih =>
    intro q hq
    rcases List.mem_cons.1 hq with rfl | hq
    · exact .inr (wildcardFor_wild hne)
    · exact ih q hq
  | @take p ps c cs al hsp _ ih =>
    intro q hq
    rcases List.mem_cons.1 hq with rfl | hq
    · exact .inl (by simp)
    · exact (ih q hq).imp (fun h => by simp [h]) id

/-- Merging a list in two parts: first the one, then the other, with wildcards in between. -/
theorem Aligned.split {ps : List (PEntry K)} {cs : List (CEntry K)} {al} (h : Aligned ps cs al)
    {b t : List (PEntry K)} (hps : ps = b ++ t) :
    ∃ al1 al2, al = al1 ++ al2 ∧ Aligned b cs al1 ∧ ∀ p ∈ al2, p ∈ t ∨ p.Wild := by
  cases b with
  | nil =>
    refine ⟨[], al, rfl, .nil _, ?_⟩
    have := h.mem
    rw [hps] at this
    simpa using this
  | cons x b =>
    induction h generalizing x b with
    | nil => simp at hps
    | rest p ps =>
      rw [List.cons_append, List.cons.injEq] at hps
      obtain ⟨rfl, rfl⟩ := hps
      exact ⟨p :: b, t, rfl, .rest _ _, fun p hp => .inl hp⟩
    | @skip p ps c cs al hsp hne _ ih =>
      obtain ⟨al1, al2, e, h1, h2⟩ := ih x b hps
      rw [List.cons_append, List.cons.injEq] at hps
      obtain ⟨rfl, rfl⟩ := hps
      exact ⟨wildcardFor c :: al1, al2, by rw [e]; rfl, .skip hsp hne h1, h2⟩
    | @take p ps c cs al hsp hal ih =>
      rw [List.cons_append, List.cons.injEq] at hps
      obtain ⟨rfl, rfl⟩ := hps
      cases b with
      | nil =>
        refine ⟨[p], al, rfl, .take hsp (.nil _), ?_⟩
        simpa using hal.mem
      | cons y b =>
        obtain ⟨al1, al2, e, h1, h2⟩ := ih y b rfl
        exact ⟨p :: al1, al2, by rw [e]; rfl, .take hsp h1, h2⟩

/-- Wildcards at the end only ask for enough entries. -/
theorem fits_wild_end {al1 al2 : List (PEntry K)} {env : List (CEntry K)} (hw : ∀ p ∈ al2, p.Wild) :
    (∃ e1 e2, env = e1 ++ e2 ∧ List.Forall₂ Fits (al1 ++ al2) e1) ↔
      (∃ e1 e2, env = e1 ++ e2 ∧ List.Forall₂ Fits al1 e1) ∧ (al1 ++ al2).length ≤ env.length := by
  constructor
  · rintro ⟨e1, e2, rfl, hf⟩
    refine ⟨⟨e1.take al1.length, e1.drop al1.length ++ e2, ?_, ?_⟩, ?_⟩
    · rw [← List.append_assoc, List.take_append_drop]
    · have := List.forall₂_take al1.length hf
      simpa using this
    · rw [hf.length_eq]; simp
  · rintro ⟨⟨e1, e2, rfl, hf⟩, hl⟩
    have h1 := hf.length_eq
    simp only [List.length_append] at hl
    refine ⟨e1 ++ e2.take al2.length, e2.drop al2.length, ?_, ?_⟩
    · rw [List.append_assoc, List.take_append_drop]
    · refine List.rel_append hf ?_
      have hl2 : al2.length = (e2.take al2.length).length := by rw [List.length_take]; omega
      refine List.forall₂_iff_get.2 ⟨hl2, fun i hi _ => .inl ?_⟩
      exact hw _ (List.get_mem _ _)

/-- In a strictly ordered list `k + 1` elements do not come after the one at place `k`. -/
theorem count_upTo {α : Type _} {R : α → α → Prop} [DecidableRel R] (hirr : ∀ a, ¬ R a a)
    (hasym : ∀ a b, R a b → R b a → False) {xs : List α} (hx : xs.Pairwise R) {k : Nat} {a : α}
    (hk : xs[k]? = some a) : (xs.filter fun b => decide (¬ R a b)).length = k + 1 := by
  induction xs generalizing k with
  | nil => simp at hk
  | cons x xs ih =>
    obtain ⟨h1, h2⟩ := List.pairwise_cons.1 hx
    cases k with
    | zero =>
      simp only [List.getElem?_cons_zero, Option.some.injEq] at hk
      subst hk
      rw [List.filter_cons_of_pos (by simpa using hirr x)]
      have : xs.filter (fun b => decide (¬ R x b)) = [] := by
        rw [List.filter_eq_nil_iff]
        intro b hb
        simpa using h1 b hb
      rw [this]
      rfl
    | succ k =>
      rw [List.getElem?_cons_succ] at hk
      have hax := h1 a (List.mem_of_getElem? hk)
      rw [List.filter_cons_of_pos (by simpa using fun h => hasym _ _ h hax), List.length_cons, ih h2 hk]

/-- Matching at a site that sees only points that the centre sees as well, for a process whose list
ends with explicit wildcards: these only ask for enough entries. -/
theorem aligned_match_within_tail [IsStrictOrderedRing K] {body tail : List (PEntry K)}
    {cs env : List (CEntry K)} {al}
    (h : Aligned (body ++ tail) cs al) {last : PEntry K} (hlast : body.getLast? = some last)
    (hw : ¬ last.Wild) (htw : ∀ p ∈ tail, p.Wild)
    (hcs : (cs.map CEntry.pt).Pairwise ptBefore) (henv : (env.map CEntry.pt).Pairwise ptBefore)
    (hsub : ∀ q ∈ env.map CEntry.pt, q ∈ cs.map CEntry.pt)
    (hps : ((body ++ tail).map PEntry.pt).Pairwise ptBefore)
    (hex : ∀ p ∈ body ++ tail, ∀ c ∈ cs, samePoint p c = true → p.pt = c.pt)
    (hcompat : Compat (body ++ tail) (cs.map CEntry.pt)) [DecidableRel (ptBefore (K := K))] :
    (∃ e1 e2, env = e1 ++ e2 ∧ List.Forall₂ Fits al e1) ↔
      (∀ p ∈ body, ∃ c ∈ env, samePoint p c = true ∧ Fits p c) ∧
      (∀ q ∈ cs.map CEntry.pt, ptBefore q last.pt → q ∈ env.map CEntry.pt) ∧
      ∀ p ∈ tail, (∃ c ∈ cs, samePoint p c = true) ∧
        ((cs.map CEntry.pt).filter fun q => decide (¬ ptBefore p.pt q)).length ≤ env.length := by
  obtain ⟨al1, al2, hal, hA1, hA2⟩ := h.split rfl
  have hA2w : ∀ p ∈ al2, p.Wild := fun p hp => (hA2 p hp).elim (htw p) id
  have hcb : Compat body (cs.map CEntry.pt) := (List.pairwise_append.1 hcompat).1
  have hpb : (body.map PEntry.pt).Pairwise ptBefore := by
    rw [List.map_append] at hps
    exact (List.pairwise_append.1 hps).1
  have hmain := aligned_match_within hA1 hlast hw hcs henv hsub hpb
    (fun p hp => hex p (by simp [hp])) hcb
  cases tail with
  | nil =>
    rw [List.append_nil] at h hps hex hcompat
    rw [aligned_match_within h hlast hw hcs henv hsub hps hex hcompat]
    simp
  | cons x tail =>
  rw [hal, fits_wild_end hA2w, hmain, and_assoc, ← hal]
  refine and_congr_right fun hbody => and_congr_right fun _ => ?_
  have hle : env.length ≤ cs.length := by
    have := (sublist_of_subset_of_pairwise ptBefore_irrefl (fun a b => ptBefore_asymm) henv hcs
      hsub).length_le
    simpa using this
  have hcount : ∀ p ∈ body ++ x :: tail, ∀ (k : Nat) (c : CEntry K), cs[k]? = some c →
      samePoint p c = true →
      ((cs.map CEntry.pt).filter fun q => decide (¬ ptBefore p.pt q)).length = k + 1 := by
    intro p hp k c hk hsp
    refine count_upTo ptBefore_irrefl (fun a b => ptBefore_asymm) hcs ?_
    rw [List.getElem?_map, hk, hex p hp c (List.mem_of_getElem? hk) hsp]
    rfl
  constructor
  · intro hl p hp
    obtain ⟨-, hfind, -⟩ := h.ends (hl.trans hle)
    obtain ⟨c, hc, hsp⟩ := hfind p (by simp [List.mem_cons.1 hp])
    obtain ⟨i, hi, hi'⟩ := List.mem_take_iff_getElem.1 hc
    refine ⟨⟨c, List.mem_of_mem_take hc, hsp⟩, ?_⟩
    rw [hcount p (by simp [List.mem_cons.1 hp]) i c (by rw [← hi']; exact List.getElem?_eq_getElem _) hsp]
    omega
  · intro hall
    have hfound : ∀ p ∈ body ++ x :: tail, ∃ c ∈ cs, samePoint p c = true := by
      intro p hp
      rcases List.mem_append.1 hp with hp | hp
      · obtain ⟨c, hc, hsp, -⟩ := hbody p hp
        obtain ⟨d, hd, hdc⟩ := List.mem_map.1 (hsub c.pt (List.mem_map_of_mem hc))
        refine ⟨d, hd, ?_⟩
        rw [samePoint_eq, hdc, ← samePoint_eq]
        exact hsp
      · exact (hall p hp).1
    obtain ⟨-, -, hend⟩ := h.ends (h.short hcompat hfound)
    obtain ⟨fin, hfin⟩ : ∃ fin, (x :: tail).getLast? = some fin := ⟨_, List.getLast?_cons ..⟩
    have hfin' : (body ++ x :: tail).getLast? = some fin := by
      rw [List.getLast?_append, hfin]
      rfl
    obtain ⟨k, c, hk, hc, -, hsp⟩ := hend fin hfin'
    have hfm := List.mem_of_getLast? hfin
    have := (hall fin hfm).2
    rw [hcount fin (by simp [List.mem_cons.1 hfm]) k c hc hsp] at this
    omega

section
variable [IsStrictOrderedRing K]

/-- Along one axis a site in cell `c` sees nothing that the central cell does not see, and nothing is
listed twice: a wide periodic axis, or an open axis on which the central cell is `r` away from the
ends, or the central cell of an open axis. -/
def AxisWithin (per : Bool) (rep r c : Nat) : Prop :=
  (per = true ∧ 2 * r + 1 ≤ rep) ∨ (per = false ∧ (c = rep / 2 ∨ (r ≤ rep / 2 ∧ rep / 2 + r < rep)))

open LatticeMap in
theorem axisWithin_shift {per : Bool} {rep r c : Nat} (h : AxisWithin per rep r c) (hc : c < rep)
    (t : Nat) (ht : t < 2 * r + 1)
    (hv : wrapCell per rep ((c : Int) - r + t) ≥ 0 ∧ wrapCell per rep ((c : Int) - r + t) < rep) :
    (wrapCell per rep (((rep / 2 : Nat) : Int) - r + t) ≥ 0 ∧
      wrapCell per rep (((rep / 2 : Nat) : Int) - r + t) < rep) ∧
    ∀ x : K, -1 < x → x < 1 →
        wrapAxis per rep (x + ((wrapCell per rep ((c : Int) - r + t)).toNat : K) - c) =
        wrapAxis per rep (x + ((wrapCell per rep (((rep / 2 : Nat) : Int) - r + t)).toNat : K)
          - (rep / 2 : Nat)) := by
  have hh : rep / 2 < rep := Nat.div_lt_self (by omega) (by omega)
  rcases h with ⟨hp, hr⟩ | ⟨hp, rfl | ⟨h1, h2⟩⟩
  · obtain ⟨i, e⟩ := axisAlike_shift (K := K) (.inr (.inl ⟨hp, by omega⟩) : AxisAlike per rep r c (rep / 2))
      hc hh t ht
    exact ⟨i.1 hv, e hv⟩
  · exact ⟨hv, fun _ _ _ => rfl⟩
  · subst hp
    unfold wrapCell wrapAxis at *
    simp only [Bool.false_eq_true, if_false] at *
    refine ⟨by omega, fun x _ _ => ?_⟩
    obtain ⟨w, hw⟩ := Int.eq_ofNat_of_zero_le hv.1
    have e1 : (w : K) = (c : K) - r + t := by exact_mod_cast hw.symm
    have e2 : ((((rep / 2 : Nat) : Int) - r + t).toNat : K) = ((rep / 2 : Nat) : K) - r + t := by
      have : (((rep / 2 : Nat) : Int) - r + t).toNat = rep / 2 - r + t := by omega
      rw [this]
      push_cast [Nat.cast_sub h1]
      ring
    rw [hw, e2]
    simp only [Int.toNat_natCast]
    rw [e1]
    ring

namespace PyLattice

open LatticeMap in
/-- Positions seen from a site are seen from the central site. -/
theorem rel_within (P : PyLattice K) (hP : P.map.WF) (hb : P.BasisOk) {r s s' : Nat}
    (hs : s < P.map.nSites) (hs' : s' < P.map.nSites)
    (h0 : P.map.basisSite s = P.map.basisSite s')
    (cA : P.map.cellA s' = P.repA / 2) (cB : P.map.cellB s' = P.repB / 2)
    (cC : P.map.cellC s' = P.repC / 2)
    (hA : AxisWithin P.perA P.repA r (P.map.cellA s)) (hB : AxisWithin P.perB P.repB r (P.map.cellB s))
    (hC : AxisWithin P.perC P.repC r (P.map.cellC s)) :
    ∀ q ∈ (P.map.neighbourIndices s r).map (P.rel s), q ∈ (P.map.neighbourIndices s' r).map (P.rel s') := by
  have vs := P.map.addr_valid hP s hs
  have vs' := P.map.addr_valid hP s' hs'
  intro q hq
  unfold neighbourIndices at hq ⊢
  rw [indexToCell_nat P.map hP] at hq ⊢
  unfold cellRange at hq ⊢
  simp only [List.map_flatMap, List.flatMap_map, List.mem_flatMap, List.mem_range] at hq ⊢
  simp only [show P.map.perA = P.perA from rfl, show P.map.repA = P.repA from rfl,
    show P.map.perB = P.perB from rfl, show P.map.repB = P.repB from rfl,
    show P.map.perC = P.perC from rfl, show P.map.repC = P.repC from rfl] at hq ⊢
  obtain ⟨t, ht, hq⟩ := hq
  split_ifs at hq with hvA
  swap
  · simp at hq
  simp only [List.map_flatMap, List.mem_flatMap, List.mem_range] at hq
  obtain ⟨u, hu, hq⟩ := hq
  split_ifs at hq with hvB
  swap
  · simp at hq
  simp only [List.map_flatMap, List.mem_flatMap, List.mem_range] at hq
  obtain ⟨v, hv, hq⟩ := hq
  split_ifs at hq with hvC
  swap
  · simp at hq
  obtain ⟨iA, eA⟩ := axisWithin_shift (K := K) hA vs.1 t ht hvA
  obtain ⟨iB, eB⟩ := axisWithin_shift (K := K) hB vs.2.1 u hu hvB
  obtain ⟨iC, eC⟩ := axisWithin_shift (K := K) hC vs.2.2.1 v hv hvC
  rw [← cA] at iA eA
  rw [← cB] at iB eB
  rw [← cC] at iC eC
  refine ⟨t, ht, ?_⟩
  rw [if_pos iA]
  simp only [List.map_flatMap, List.mem_flatMap, List.mem_range]
  refine ⟨u, hu, ?_⟩
  rw [if_pos iB]
  simp only [List.map_flatMap, List.mem_flatMap, List.mem_range]
  refine ⟨v, hv, ?_⟩
  rw [if_pos iC]
  unfold indicesFromCell at hq ⊢
  simp only [List.map_map, List.mem_map, List.mem_range] at hq ⊢
  obtain ⟨l, hl', rfl⟩ := hq
  refine ⟨l, hl', ?_⟩
  simp only [Function.comp, rel, pos]
  obtain ⟨a1, a2, a3, a4⟩ := P.map.cells_of_siteIndex
    (wrapCell P.perA P.repA ((P.map.cellA s : Int) - r + t)).toNat
    (wrapCell P.perB P.repB ((P.map.cellB s : Int) - r + u)).toNat
    (wrapCell P.perC P.repC ((P.map.cellC s : Int) - r + v)).toNat l
    (by show _ < P.repB; omega) (by show _ < P.repC; omega) hl'
  obtain ⟨b1, b2, b3, b4⟩ := P.map.cells_of_siteIndex
    (wrapCell P.perA P.repA ((P.map.cellA s' : Int) - r + t)).toNat
    (wrapCell P.perB P.repB ((P.map.cellB s' : Int) - r + u)).toNat
    (wrapCell P.perC P.repC ((P.map.cellC s' : Int) - r + v)).toNat l
    (by show _ < P.repB; omega) (by show _ < P.repC; omega) hl'
  rw [a1, a2, a3, a4, b1, b2, b3, b4, ← h0]
  have r1 := P.getD_basis_range hb l
  have r2 := P.getD_basis_range hb (P.map.basisSite s)
  simp only at r1 r2
  generalize P.basis.getD l 0 = bl at r1 ⊢
  generalize P.basis.getD (P.map.basisSite s) 0 = bs at r2 ⊢
  rw [wrap_eq, wrap_eq]
  have fin : ∀ (per : Bool) (rep : Nat) (x y w c w' c' : K), -1 < x - y → x - y < 1 →
      (∀ d : K, -1 < d → d < 1 → wrapAxis per rep (d + w - c) = wrapAxis per rep (d + w' - c')) →
      wrapAxis per rep (x + w' - (y + c')) = wrapAxis per rep (x + w - (y + c)) := by
    intro per rep x y w c w' c' h1 h2 h
    have := h (x - y) h1 h2
    rw [show x + w - (y + c) = x - y + w - c by ring, this]
    congr 1
    ring
  ext
  · exact fin _ _ _ _ _ _ _ _ (by linarith [r1.1.1, r2.1.2]) (by linarith [r1.1.2, r2.1.1]) eA
  · exact fin _ _ _ _ _ _ _ _ (by linarith [r1.2.1.1, r2.2.1.2]) (by linarith [r1.2.1.2, r2.2.1.1]) eB
  · exact fin _ _ _ _ _ _ _ _ (by linarith [r1.2.2.1, r2.2.2.2]) (by linarith [r1.2.2.2, r2.2.2.1]) eC

end PyLattice
end
end KMC

import Verif.Lemmas.Environment
import Verif.Model.Interactions

/-!
# Matching and wildcard insertion
-/

set_option linter.unusedSectionVars false

namespace KMC

variable {K : Type _} [Field K] [LinearOrder K]

/-- The entry accepts any types. -/
def PEntry.Wild (p : PEntry K) : Prop := p.matchTypes[0]? = some 1

instance (p : PEntry K) : Decidable p.Wild := by unfold PEntry.Wild; infer_instance

/-- The wildcard put in for a configuration entry. -/
def wildcardFor (c : CEntry K) : PEntry K :=
  { hasMove := false, distance := c.distance, coord := c.coord, moveCoord := 0,
    matchTypes := (Bucket.zeros c.matchTypes.length).set 0 1,
    updateTypes := Bucket.zeros c.matchTypes.length }

theorem initWildcard_ok {c : CEntry K} (h : c.matchTypes ≠ []) : initWildcard c = .ok (wildcardFor c) := by
  unfold initWildcard
  rw [wr_of_lt (by simpa [Bucket.zeros] using List.length_pos_iff.2 h)]
  rfl

theorem initWildcard_eq {c : CEntry K} {w : PEntry K} (h : initWildcard c = .ok w) :
    w = wildcardFor c ∧ c.matchTypes ≠ [] := by
  unfold initWildcard at h
  rw [bind_ok] at h
  obtain ⟨m, hm, h⟩ := h
  rw [wr_ok] at hm
  cases h
  refine ⟨by rw [← hm.2]; rfl, ?_⟩
  rintro h0
  rw [h0] at hm
  simp [Bucket.zeros] at hm

theorem wildcardFor_wild {c : CEntry K} (h : c.matchTypes ≠ []) : (wildcardFor c).Wild := by
  have h' := List.length_pos_iff.2 h
  simp [PEntry.Wild, wildcardFor, Bucket.zeros, h']

theorem matches?_ok {p : PEntry K} {c : CEntry K} (hl : p.matchTypes.length = c.matchTypes.length)
    (hne : p.matchTypes ≠ []) :
    ∃ r, p.matches? c = .ok r ∧
      (r = true ↔ p.Wild ∨ (samePoint p c = true ∧
        ∀ (i : Nat) (x y : Int), p.matchTypes[i]? = some x → c.matchTypes[i]? = some y → x ≤ y)) := by
  have hlen := List.length_pos_iff.2 hne
  unfold PEntry.matches?
  rw [rd_of_lt hlen, ok_bind]
  have hw : p.Wild ↔ p.matchTypes[0] = 1 := by
    unfold PEntry.Wild; rw [List.getElem?_eq_getElem hlen]; simp
  by_cases h1 : p.matchTypes[0] = 1
  · rw [if_pos h1]
    exact ⟨true, rfl, by simp [hw, h1]⟩
  · rw [if_neg h1]
    unfold Bucket.matches?
    rw [if_neg (by simpa using hl), ok_bind, hw]
    cases hm : Bucket.matchLoop p.matchTypes c.matchTypes with
    | false =>
      refine ⟨false, by simp, ?_⟩
      rw [← Bucket.matchLoop_iff, hm]
      simp [h1]
    | true =>
      refine ⟨samePoint p c, by simp, ?_⟩
      rw [← Bucket.matchLoop_iff, hm]
      simp [h1]

/-- What `matches?` answers, as a proposition. -/
def Fits (p : PEntry K) (c : CEntry K) : Prop :=
  p.Wild ∨ (samePoint p c = true ∧
    ∀ (i : Nat) (x y : Int), p.matchTypes[i]? = some x → c.matchTypes[i]? = some y → x ≤ y)

/-- All buckets have the same, positive size. -/
def SizedP (n : Nat) (ps : List (PEntry K)) : Prop := ∀ p ∈ ps, p.matchTypes.length = n
def SizedC (n : Nat) (cs : List (CEntry K)) : Prop := ∀ c ∈ cs, c.matchTypes.length = n

theorem whateverMatch_ok {n : Nat} (hn : 0 < n) (ps : List (PEntry K)) (cs : List (CEntry K))
    (hp : SizedP n ps) (hc : SizedC n cs) :
    ∃ r, whateverMatch ps cs = .ok r ∧
      (r = true ↔ ∃ cs1 cs2, cs = cs1 ++ cs2 ∧ List.Forall₂ Fits ps cs1) := by
  unfold whateverMatch
  by_cases hlen : cs.length < ps.length
  · rw [if_pos hlen]
    refine ⟨false, rfl, ?_⟩
    constructor
    · intro h; cases h
    · rintro ⟨cs1, cs2, rfl, hf⟩
      have := hf.length_eq
      simp at hlen
      omega
  · rw [if_neg hlen]
    induction ps generalizing cs with
    | nil => exact ⟨true, rfl, by simp⟩
    | cons p ps ih =>
      cases cs with
      | nil => simp at hlen
      | cons c cs =>
        have hlp : p.matchTypes.length = c.matchTypes.length := by
          rw [hp p (by simp), hc c (by simp)]
        have hne : p.matchTypes ≠ [] := by
          rw [← List.length_pos_iff, hp p (by simp)]; exact hn
        obtain ⟨r, hr, hr'⟩ := matches?_ok hlp hne
        obtain ⟨r2, hr2, hr2'⟩ := ih cs (fun q hq => hp q (by simp [hq])) (fun q hq => hc q (by simp [hq]))
          (by simpa using hlen)
        unfold matchPrefix
        rw [hr, ok_bind]
        cases r with
        | false =>
          refine ⟨false, by simp, ?_⟩
          constructor
          · intro h; cases h
          · rintro ⟨cs1, cs2, hcs, hf⟩
            cases hf with
            | cons h _ =>
              rw [List.cons_append, List.cons.injEq] at hcs
              obtain ⟨rfl, -⟩ := hcs
              exact hr'.2 h
        | true =>
          refine ⟨r2, by simpa using hr2, ?_⟩
          rw [hr2']
          constructor
          · rintro ⟨cs1, cs2, rfl, hf⟩
            exact ⟨c :: cs1, cs2, rfl, .cons (hr'.1 rfl) hf⟩
          · rintro ⟨cs1, cs2, hcs, hf⟩
            cases hf with
            | cons _ hf =>
              rw [List.cons_append, List.cons.injEq] at hcs
              exact ⟨_, cs2, hcs.2, hf⟩

/-! ### Wildcard insertion -/

/-- The result of the merge loop, as a relation. -/
inductive Aligned : List (PEntry K) → List (CEntry K) → List (PEntry K) → Prop
  | nil (cs) : Aligned [] cs []
  | rest (p ps) : Aligned (p :: ps) [] (p :: ps)
  | skip {p ps c cs al} : samePoint p c = false → c.matchTypes ≠ [] → Aligned (p :: ps) cs al →
      Aligned (p :: ps) (c :: cs) (wildcardFor c :: al)
  | take {p ps c cs al} : samePoint p c = true → Aligned ps cs al →
      Aligned (p :: ps) (c :: cs) (p :: al)

theorem alignLoop_aligned {ps : List (PEntry K)} {cs : List (CEntry K)} {old new : Nat} {m : List Nat}
    {r} (h : Interactions.alignLoop ps cs old new m = .ok r) : Aligned ps cs r.1 := by
  fun_induction Interactions.alignLoop ps cs old new m generalizing r with
  | case1 => cases h; exact .nil _
  | case2 => cases h; exact .rest _ _
  | case3 p ps c cs old new m hsp ih =>
    rw [bind_ok] at h
    obtain ⟨w, hw, h⟩ := h
    rw [bind_ok] at h
    obtain ⟨r', hr', h⟩ := h
    cases h
    rw [(initWildcard_eq hw).1]
    exact .skip hsp (initWildcard_eq hw).2 (ih hr')
  | case4 p ps c cs old new m hsp ih =>
    rw [bind_ok] at h
    obtain ⟨m', hm', h⟩ := h
    rw [bind_ok] at h
    obtain ⟨r', hr', h⟩ := h
    cases h
    exact .take (by simpa using hsp) (ih m' hr')

/-- The merge loop succeeds on sized lists with room in the mapping. -/
theorem alignLoop_total {ps : List (PEntry K)} {cs : List (CEntry K)} {old new : Nat} {m : List Nat}
    (hc : ∀ c ∈ cs, c.matchTypes ≠ []) (hon : old ≤ new) (hm : new + cs.length ≤ m.length) :
    ∃ r, Interactions.alignLoop ps cs old new m = .ok r := by
  fun_induction Interactions.alignLoop ps cs old new m with
  | case1 => exact ⟨_, rfl⟩
  | case2 => exact ⟨_, rfl⟩
  | case3 p ps c cs old new m hsp ih =>
    obtain ⟨r, hr⟩ := ih (fun c hc' => hc c (by simp [hc'])) (by omega) (by simp at hm; omega)
    rw [initWildcard_ok (hc c (by simp)), ok_bind, hr]
    exact ⟨_, rfl⟩
  | case4 p ps c cs old new m hsp ih =>
    simp at hm
    rw [wr_of_lt (by omega), ok_bind]
    obtain ⟨r, hr⟩ := ih (m.set old new) (fun c hc' => hc c (by simp [hc'])) (by omega) (by simp; omega)
    rw [hr]
    exact ⟨_, rfl⟩

/-- The mapping returned by the merge loop: explicit entry number `i` sits where the mapping says. -/
theorem alignLoop_mapping {ps : List (PEntry K)} {cs : List (CEntry K)} {old new : Nat} {m : List Nat}
    {r} (h : Interactions.alignLoop ps cs old new m = .ok r) :
    r.2.1.length = m.length ∧ old ≤ r.2.2 ∧ r.2.2 ≤ old + ps.length ∧
    (∀ i < old, r.2.1[i]? = m[i]?) ∧
    (∀ i, old ≤ i → i < r.2.2 → ∃ k p, r.2.1[i]? = some (new + k) ∧ r.1[k]? = some p ∧
      ps[i - old]? = some p) ∧
    (∀ i j : Nat, old ≤ i → i < j → j < r.2.2 → ∀ a b : Nat, r.2.1[i]? = some a → r.2.1[j]? = some b → a < b) := by
  fun_induction Interactions.alignLoop ps cs old new m generalizing r with
  | case1 =>
    cases h
    refine ⟨rfl, by simp, by simp, by simp, ?_, ?_⟩
    · intro i h1 h2; simp at h2; omega
    · intro i j h1 h2 h3; simp at h3; omega
  | case2 =>
    cases h
    refine ⟨rfl, by simp, by simp, by simp, ?_, ?_⟩
    · intro i h1 h2; simp at h2; omega
    · intro i j h1 h2 h3; simp at h3; omega
  | case3 p ps c cs old new m hsp ih =>
    rw [bind_ok] at h
    obtain ⟨w, hw, h⟩ := h
    rw [bind_ok] at h
    obtain ⟨r', hr', h⟩ := h
    cases h
    obtain ⟨h1, h2, h3, h4, h5, h6⟩ := ih hr'
    refine ⟨h1, h2, h3, h4, ?_, h6⟩
    intro i hi1 hi2
    obtain ⟨k, q, hk, hq, hq'⟩ := h5 i hi1 hi2
    exact ⟨k + 1, q, by rw [hk]; congr 1; omega, by simpa using hq, hq'⟩
  | case4 p ps c cs old new m hsp ih =>
    rw [bind_ok] at h
    obtain ⟨m', hm', h⟩ := h
    rw [bind_ok] at h
    obtain ⟨r', hr', h⟩ := h
    cases h
    obtain ⟨h1, h2, h3, h4, h5, h6⟩ := ih m' hr'
    rw [wr_ok] at hm'
    obtain ⟨hlt, rfl⟩ := hm'
    have hold : r'.2.1[old]? = some new := by
      rw [h4 old (by omega)]; simp [hlt]
    refine ⟨by simpa using h1, by simp only; omega, by simp only [List.length_cons]; omega, ?_, ?_, ?_⟩
    · intro i hi
      rw [h4 i (by omega), List.getElem?_set]
      rw [if_neg (by omega)]
    · intro i hi1 hi2
      by_cases hio : i = old
      · subst hio
        exact ⟨0, p, by simpa using hold, by simp, by simp⟩
      · obtain ⟨k, q, hk, hq, hq'⟩ := h5 i (by omega) hi2
        refine ⟨k + 1, q, by rw [hk]; congr 1; omega, by simpa using hq, ?_⟩
        have : i - old = (i - (old + 1)) + 1 := by omega
        rw [this, List.getElem?_cons_succ]
        exact hq'
    · intro i j hi hij hj a b ha hb
      by_cases hio : i = old
      · subst hio
        obtain ⟨k, q, hk, -, -⟩ := h5 j (by omega) hj
        rw [hold] at ha
        rw [hk] at hb
        cases ha; cases hb
        omega
      · exact h6 i j (by omega) hij hj a b ha hb

theorem Aligned.sized {n : Nat} {ps : List (PEntry K)} {cs : List (CEntry K)} {al}
    (h : Aligned ps cs al) (hp : SizedP n ps) (hc : SizedC n cs) : SizedP n al := by
  induction h with
  | nil => exact hp
  | rest => exact hp
  | @skip p ps c cs al _ hcne _ ih =>
    have ih' := ih hp (fun q hq => hc q (by simp [hq]))
    intro q hq
    rcases List.mem_cons.1 hq with rfl | hq
    · simp [wildcardFor, Bucket.zeros, hc c (by simp)]
    · exact ih' q hq
  | @take p ps c cs al _ _ ih =>
    have ih' := ih (fun q hq => hp q (by simp [hq])) (fun q hq => hc q (by simp [hq]))
    intro q hq
    rcases List.mem_cons.1 hq with rfl | hq
    · exact hp _ (by simp)
    · exact ih' q hq

/-- The explicit entries stay, in order; everything else in the new list is an inert wildcard. -/
theorem Aligned.sublist {ps : List (PEntry K)} {cs : List (CEntry K)} {al} (h : Aligned ps cs al) :
    ps.Sublist al ∧ ∀ q ∈ al, q ∈ ps ∨ ∃ c ∈ cs, c.matchTypes ≠ [] ∧ q = wildcardFor c := by
  induction h with
  | nil => simp
  | rest => exact ⟨List.Sublist.refl _, fun q hq => .inl hq⟩
  | @skip p ps c cs al _ hcne _ ih =>
    refine ⟨ih.1.cons _, ?_⟩
    intro q hq
    rcases List.mem_cons.1 hq with rfl | hq
    · exact .inr ⟨c, by simp, hcne, rfl⟩
    · rcases ih.2 q hq with h | ⟨c', hc', h⟩
      · exact .inl h
      · exact .inr ⟨c', by simp [hc'], h⟩
  | @take p ps c cs al _ _ ih =>
    refine ⟨ih.1.cons_cons _, ?_⟩
    intro q hq
    rcases List.mem_cons.1 hq with rfl | hq
    · exact .inl (by simp)
    · rcases ih.2 q hq with h | ⟨c', hc', h⟩
      · exact .inl (by simp [h])
      · exact .inr ⟨c', by simp [hc'], h⟩

/-- Explicit entries come in the same order as the lattice points they sit at, and no two of them sit
at one point. -/
def Compat (ps : List (PEntry K)) (cs : List (Pt K)) : Prop :=
  ps.Pairwise (fun p q => ∀ (k l : Nat) (c d : Pt K), cs[k]? = some c → cs[l]? = some d →
    ptSame p.distance p.coord c.1 c.2 = true → ptSame q.distance q.coord d.1 d.2 = true → k < l)

/-- Entries of the environment at one explicit position (a site can be listed more than once in a
narrow box) have the same types. -/
def OneSite (ps : List (PEntry K)) (env : List (CEntry K)) : Prop :=
  ∀ p ∈ ps, ∀ c ∈ env, ∀ d ∈ env, samePoint p c = true → samePoint p d = true →
    c.matchTypes = d.matchTypes

theorem samePoint_eq (p : PEntry K) (c : CEntry K) :
    samePoint p c = ptSame p.distance p.coord c.pt.1 c.pt.2 := rfl

theorem Compat.tail {ps : List (PEntry K)} {c : Pt K} {cs : List (Pt K)} (h : Compat ps (c :: cs)) :
    Compat ps cs := by
  refine List.Pairwise.imp ?_ h
  intro p q hpq k l x y hk hl hx hy
  have := hpq (k + 1) (l + 1) x y (by simpa using hk) (by simpa using hl) hx hy
  omega

/-- The aligned list matches an environment with the same points exactly when every explicit entry
fits at its point. -/
theorem aligned_match {ps : List (PEntry K)} {cs env : List (CEntry K)} {al}
    (h : Aligned ps cs al) (hpts : env.map CEntry.pt = cs.map CEntry.pt)
    (hcompat : Compat ps (cs.map CEntry.pt)) (hone : OneSite ps env) :
    (∃ e1 e2, env = e1 ++ e2 ∧ List.Forall₂ Fits al e1) ↔
      ∀ p ∈ ps, ∃ c ∈ env, samePoint p c = true ∧ Fits p c := by
  induction h generalizing env with
  | nil => simp
  | rest p ps =>
    simp only [List.map_nil, List.map_eq_nil_iff] at hpts
    subst hpts
    constructor
    · rintro ⟨e1, e2, he, hf⟩
      have : e1 = [] := by
        have := congrArg List.length he
        simp at this
        exact List.length_eq_zero_iff.1 (by omega)
      subst this
      cases hf
    · intro h
      obtain ⟨c, hc, -⟩ := h p (by simp)
      simp at hc
  | @skip p ps c cs al hsp hcne _ ih =>
    cases env with
    | nil => simp at hpts
    | cons e env =>
      simp only [List.map_cons, List.cons.injEq] at hpts
      have ih' := ih hpts.2 hcompat.tail
        (fun p hp c hc d hd => hone p hp c (by simp [hc]) d (by simp [hd]))
      have hpe : samePoint p e = false := by
        rw [samePoint_eq, hpts.1, ← samePoint_eq]; exact hsp
      -- no explicit entry sits at e
      have hno : ∀ q ∈ p :: ps, samePoint q e = true → ∀ c' ∈ env, samePoint p c' = true → False := by
        intro q hq hqe c' hc' hpc'
        obtain ⟨l, hl, hl'⟩ := List.getElem_of_mem hc'
        have hpl : ((c :: cs).map CEntry.pt)[l + 1]? = some c'.pt := by
          rw [List.map_cons, List.getElem?_cons_succ, ← hpts.2, List.getElem?_map,
            List.getElem?_eq_getElem hl, hl']
          rfl
        have hp0 : ((c :: cs).map CEntry.pt)[0]? = some e.pt := by
          rw [List.map_cons, List.getElem?_cons_zero, hpts.1]
        rcases List.mem_cons.1 hq with rfl | hq
        · rw [hpe] at hqe; cases hqe
        · have := (List.pairwise_cons.1 hcompat).1 q hq (l + 1) 0 _ _ hpl hp0 hpc' hqe
          omega
      constructor
      · rintro ⟨e1, e2, he, hf⟩
        cases hf with
        | cons _ hf =>
          rw [List.cons_append, List.cons.injEq] at he
          have := ih'.1 ⟨_, e2, he.2, hf⟩
          intro q hq
          obtain ⟨c', hc', h1, h2⟩ := this q hq
          exact ⟨c', by simp [hc'], h1, h2⟩
      · intro hall
        have hp' : ∃ c' ∈ env, samePoint p c' = true ∧ Fits p c' := by
          obtain ⟨c', hc', h1, h2⟩ := hall p (by simp)
          rcases List.mem_cons.1 hc' with rfl | hc'
          · rw [hpe] at h1; cases h1
          · exact ⟨c', hc', h1, h2⟩
        obtain ⟨cp, hcp, hcp1, -⟩ := hp'
        obtain ⟨e1, e2, he, hf⟩ := ih'.2 (by
          intro q hq
          obtain ⟨c', hc', h1, h2⟩ := hall q hq
          rcases List.mem_cons.1 hc' with rfl | hc'
          · exact (hno q hq h1 cp hcp hcp1).elim
          · exact ⟨c', hc', h1, h2⟩)
        exact ⟨e :: e1, e2, by rw [he]; rfl, .cons (.inl (wildcardFor_wild hcne)) hf⟩
  | @take p ps c cs al hsp _ ih =>
    cases env with
    | nil => simp at hpts
    | cons e env =>
      simp only [List.map_cons, List.cons.injEq] at hpts
      have ih' := ih hpts.2 (List.pairwise_cons.1 hcompat.tail).2
        (fun p hp c hc d hd => hone p (by simp [hp]) c (by simp [hc]) d (by simp [hd]))
      have hpe : samePoint p e = true := by
        rw [samePoint_eq, hpts.1, ← samePoint_eq]; exact hsp
      have hp0 : ((c :: cs).map CEntry.pt)[0]? = some e.pt := by
        rw [List.map_cons, List.getElem?_cons_zero, hpts.1]
      constructor
      · rintro ⟨e1, e2, he, hf⟩
        cases hf with
        | cons h0 hf =>
          rw [List.cons_append, List.cons.injEq] at he
          obtain ⟨rfl, he⟩ := he
          have := ih'.1 ⟨_, e2, he, hf⟩
          intro q hq
          rcases List.mem_cons.1 hq with rfl | hq
          · exact ⟨e, by simp, hpe, h0⟩
          · obtain ⟨c', hc', h1, h2⟩ := this q hq
            exact ⟨c', by simp [hc'], h1, h2⟩
      · intro hall
        have hfit : Fits p e := by
          obtain ⟨c', hc', h1, h2⟩ := hall p (by simp)
          have ht := hone p (by simp) c' hc' e (by simp) h1 hpe
          rcases h2 with h2 | h2
          · exact .inl h2
          · refine .inr ⟨hpe, ?_⟩
            rw [← ht]
            exact h2.2
        obtain ⟨e1, e2, he, hf⟩ := ih'.2 (by
          intro q hq
          obtain ⟨c', hc', h1, h2⟩ := hall q (by simp [hq])
          rcases List.mem_cons.1 hc' with rfl | hc'
          · have := (List.pairwise_cons.1 hcompat).1 q hq 0 0 _ _ hp0 hp0 hpe h1
            omega
          · exact ⟨c', hc', h1, h2⟩)
        exact ⟨e :: e1, e2, by rw [he]; rfl, .cons hfit hf⟩

/-- Strictly ordered explicit entries and ordered lattice points are compatible when explicit entries
sit at lattice points exactly or not at all. -/
theorem compat_of_sorted [IsStrictOrderedRing K] {ps : List (PEntry K)} {cs : List (Pt K)}
    (hps : (ps.map PEntry.pt).Pairwise ptBefore)
    (hcs : cs.Pairwise (fun p q => ptBefore p q ∨ p = q))
    (hex : ∀ p ∈ ps, ∀ c ∈ cs, ptSame p.distance p.coord c.1 c.2 = true → p.pt = c) : Compat ps cs := by
  have hps' := List.pairwise_map.1 hps
  refine List.Pairwise.imp_of_mem ?_ hps'
  intro p q hp hq hpq k l c d hk hl h1 h2
  have e1 := hex p hp c (List.mem_of_getElem? hk) h1
  have e2 := hex q hq d (List.mem_of_getElem? hl) h2
  subst e1 e2
  obtain ⟨hkl, hk'⟩ := List.getElem?_eq_some_iff.1 hk
  obtain ⟨hll, hl'⟩ := List.getElem?_eq_some_iff.1 hl
  by_contra hc
  push Not at hc
  rcases Nat.lt_or_ge l k with h | h
  · have := List.pairwise_iff_getElem.1 hcs l k hll hkl h
    rw [hk', hl'] at this
    rcases this with h | h
    · exact ptBefore_asymm h hpq
    · rw [h] at hpq; exact ptBefore_irrefl _ hpq
  · have : l = k := by omega
    subst this
    rw [hk, Option.some.injEq] at hl
    rw [hl] at hpq
    exact ptBefore_irrefl _ hpq

end KMC

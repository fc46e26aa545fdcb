import Verif.Lemmas.Reuse

/-!
# Inserting wildcards a second time

On the same lattice nothing more is inserted.
-/

set_option linter.unusedSectionVars false

namespace KMC

open LatticeModel

variable {K : Type} [Field K] [LinearOrder K]

/-- What wildcard insertion sees of an entry. -/
def CEntry.place (c : CEntry K) : K × Coord K × Nat := (c.distance, c.coord, c.matchTypes.length)

theorem alignLoop_place {ps : List (PEntry K)} {cs cs' : List (CEntry K)} {old new : Nat} {m : List Nat}
    (h : cs'.map CEntry.place = cs.map CEntry.place) :
    Interactions.alignLoop ps cs' old new m = Interactions.alignLoop ps cs old new m := by
  induction cs generalizing ps cs' old new m with
  | nil =>
    rw [List.map_nil, List.map_eq_nil_iff] at h
    rw [h]
  | cons c cs ih =>
    cases cs' with
    | nil => cases h
    | cons c' cs' =>
      rw [List.map_cons, List.map_cons, List.cons.injEq] at h
      obtain ⟨h1, h2⟩ := h
      simp only [CEntry.place, Prod.mk.injEq] at h1
      cases ps with
      | nil => rfl
      | cons p ps =>
        have hsp : samePoint p c' = samePoint p c := by unfold samePoint; rw [h1.1, h1.2.1]
        have hw : initWildcard c' = initWildcard c := by unfold initWildcard; rw [h1.1, h1.2.1, h1.2.2]
        unfold Interactions.alignLoop
        rw [hsp, hw]
        simp only [ih h2]

variable [IsStrictOrderedRing K]

theorem samePoint_wildcardFor (c : CEntry K) : samePoint (wildcardFor c) c = true := by
  have h : (0 : K) ≤ epsi := by unfold epsi; positivity
  unfold samePoint wildcardFor ptSame
  simp [h]

/-- Walking through the result a second time inserts nothing, and the places stay as they are. -/
theorem alignLoop_again {ps : List (PEntry K)} {cs : List (CEntry K)} {old new : Nat} {m : List Nat}
    {r : List (PEntry K) × List Nat × Nat} (h : Interactions.alignLoop ps cs old new m = .ok r) (m' : List Nat)
    (hm : new + cs.length ≤ m'.length) :
    ∃ m'' k, Interactions.alignLoop r.1 cs new new m' = .ok (r.1, m'', k) ∧ new ≤ k ∧
      (∀ i < new, m''[i]? = m'[i]?) ∧ (∀ i, new ≤ i → i < k → m''[i]? = some i) ∧
      (∀ i, old ≤ i → i < r.2.2 → ∃ a, r.2.1[i]? = some a ∧ new ≤ a ∧ a < k) := by
  fun_induction Interactions.alignLoop ps cs old new m generalizing r m' with
  | case1 cs old new m =>
    cases h
    refine ⟨m', new, by unfold Interactions.alignLoop; rfl, le_refl _, fun _ _ => rfl, fun i h1 h2 => by omega, fun i h1 h2 => ?_⟩
    exact absurd h2 (by simpa using h1)
  | case2 p ps old new m =>
    cases h
    refine ⟨m', new, by unfold Interactions.alignLoop; rfl, le_refl _, fun _ _ => rfl, fun i h1 h2 => by omega, fun i h1 h2 => ?_⟩
    exact absurd h2 (by simpa using h1)
  | case3 p ps c cs old new m hsp ih =>
    rw [bind_ok] at h
    obtain ⟨w, hw, h⟩ := h
    rw [bind_ok] at h
    obtain ⟨r', hr', h⟩ := h
    cases h
    rw [(initWildcard_eq hw).1]
    simp only [List.length_cons] at hm
    obtain ⟨m'', k, h1, h2, h3, h4, h5⟩ := ih hr' (m'.set new new) (by rw [List.length_set]; omega)
    refine ⟨m'', k, ?_, by omega, ?_, ?_, ?_⟩
    · unfold Interactions.alignLoop
      rw [samePoint_wildcardFor, if_neg (by decide), wr_of_lt (by omega), ok_bind, h1, ok_bind]
      rfl
    · intro i hi
      rw [h3 i (by omega), List.getElem?_set, if_neg (by omega)]
    · intro i hi hk
      by_cases hin : i = new
      · subst hin
        rw [h3 i (by omega), List.getElem?_set, if_pos rfl, if_pos (by omega)]
      · exact h4 i (by omega) hk
    · intro i hi hk
      obtain ⟨a, a1, a2, a3⟩ := h5 i hi hk
      exact ⟨a, a1, by omega, a3⟩
  | case4 p ps c cs old new m hsp ih =>
    rw [bind_ok] at h
    obtain ⟨m1, hm1, h⟩ := h
    rw [bind_ok] at h
    obtain ⟨r', hr', h⟩ := h
    cases h
    simp only [List.length_cons] at hm
    obtain ⟨m'', k, h1, h2, h3, h4, h5⟩ := ih m1 hr' (m'.set new new) (by rw [List.length_set]; omega)
    refine ⟨m'', k, ?_, by omega, ?_, ?_, ?_⟩
    · unfold Interactions.alignLoop
      rw [if_neg hsp, wr_of_lt (by omega), ok_bind, h1, ok_bind]
      rfl
    · intro i hi
      rw [h3 i (by omega), List.getElem?_set, if_neg (by omega)]
    · intro i hi hk
      by_cases hin : i = new
      · subst hin
        rw [h3 i (by omega), List.getElem?_set, if_pos rfl, if_pos (by omega)]
      · exact h4 i (by omega) hk
    · intro i hi hk
      by_cases hio : i = old
      · subst hio
        refine ⟨new, ?_, le_refl _, by omega⟩
        rw [(alignLoop_mapping hr').2.2.2.1 i (by omega)]
        obtain ⟨hlt, rfl⟩ := wr_ok.1 hm1
        rw [List.getElem?_set, if_pos rfl, if_pos hlt]
      · obtain ⟨a, a1, a2, a3⟩ := h5 i (by omega) hk
        exact ⟨a, a1, by omega, a3⟩

/-- The lists of the site that stands for all have the same places. -/
def SamePlaces (cfg cfg' : Config K) : Prop :=
  cfg'.matchLists.map (fun l => l.map CEntry.place) = cfg.matchLists.map (fun l => l.map CEntry.place)

omit [IsStrictOrderedRing K] in
theorem SamePlaces.rd {cfg cfg' : Config K} (h : SamePlaces cfg cfg') {i : Nat} {l : List (CEntry K)}
    (hl : cfg.matchLists[i]? = some l) :
    ∃ l', cfg'.matchLists[i]? = some l' ∧ l'.map CEntry.place = l.map CEntry.place := by
  have h1 : (cfg.matchLists.map (fun l => l.map CEntry.place))[i]? = some (l.map CEntry.place) := by
    rw [List.getElem?_map, hl]; rfl
  rw [← h, List.getElem?_map, Option.map_eq_some_iff] at h1
  exact h1

omit [IsStrictOrderedRing K] in
theorem updateMatchListOf_place {cfg cfg' : Config K} (h : SamePlaces cfg cfg') {L : LatticeMap} {p p' : Proc K}
    (hp : Interactions.updateMatchListOf cfg L p = .ok p') : Interactions.updateMatchListOf cfg' L p = .ok p' := by
  unfold Interactions.updateMatchListOf at hp ⊢
  match p.basisSites, hp with
  | [b], hp =>
    simp only at hp ⊢
    rw [bind_ok] at hp
    obtain ⟨i, h1, hp⟩ := hp
    rw [bind_ok] at hp
    obtain ⟨cml, h2, hp⟩ := hp
    obtain ⟨cml', h3, h4⟩ := h.rd (rd_ok.1 h2)
    have hl : cml'.length = cml.length := by simpa using congrArg List.length h4
    rw [h1, ok_bind, rd_of_getElem? h3, ok_bind, alignLoop_place h4, hl]
    exact hp
  | [], hp => exact hp
  | _ :: _ :: _, hp => exact hp

/-- A process into which wildcards have been inserted stays as it is. -/
theorem updateMatchListOf_again {cfg cfg' : Config K} (h : SamePlaces cfg cfg') {L : LatticeMap} {p p' : Proc K}
    (hp : Interactions.updateMatchListOf cfg L p = .ok p') : Interactions.updateMatchListOf cfg' L p' = .ok p' := by
  refine updateMatchListOf_place h ?_
  have hb : p'.basisSites = p.basisSites := by
    unfold Interactions.updateMatchListOf at hp
    match hbs : p.basisSites, hp with
    | [b], hp =>
      simp only at hp
      rw [bind_ok] at hp
      obtain ⟨i, -, hp⟩ := hp
      rw [bind_ok] at hp
      obtain ⟨cml, -, hp⟩ := hp
      rw [bind_ok] at hp
      obtain ⟨r, -, hp⟩ := hp
      rw [bind_ok] at hp
      obtain ⟨ms, -, hp⟩ := hp
      cases hp
      rfl
    | [], hp => cases hp; exact hbs
    | _ :: _ :: _, hp => cases hp; exact hbs
  unfold Interactions.updateMatchListOf at hp ⊢
  rw [hb]
  match p.basisSites, hp with
  | [b], hp =>
    simp only at hp ⊢
    rw [bind_ok] at hp
    obtain ⟨i, h1, hp⟩ := hp
    rw [bind_ok] at hp
    obtain ⟨cml, h2, hp⟩ := hp
    rw [bind_ok] at hp
    obtain ⟨r, h3, hp⟩ := hp
    rw [bind_ok] at hp
    obtain ⟨ms, h4, hp⟩ := hp
    cases hp
    obtain ⟨m'', k, a1, -, -, a4, a5⟩ := alignLoop_again h3 (List.replicate cml.length 0) (by simp)
    rw [h1, ok_bind, h2, ok_bind]
    simp only
    rw [a1, ok_bind]
    simp only
    have hms : ∀ mv ∈ ms, mv.1 < k ∧ mv.2 < k := by
      intro mv hmv
      rw [mapMM_ok_iff] at h4
      obtain ⟨j, hj⟩ := List.mem_iff_getElem?.1 hmv
      obtain ⟨hjl, hje⟩ := List.getElem?_eq_some_iff.1 hj
      have hjl' : j < p.idMoves.length := by rw [h4.length_eq]; exact hjl
      have h5 := (List.forall₂_iff_get.1 h4).2 j hjl' hjl
      simp only [List.get_eq_getElem, hje] at h5
      rw [bind_ok] at h5
      obtain ⟨a, ha, h5⟩ := h5
      rw [bind_ok] at h5
      obtain ⟨b', hb', h5⟩ := h5
      cases h5
      have key : ∀ {x y : Nat}, rd (r.2.1.take r.2.2) x = .ok y → y < k := by
        intro x y hxy
        have h6 := rd_ok.1 hxy
        rw [List.getElem?_take] at h6
        split at h6
        · next hx =>
          obtain ⟨a, b1, -, b3⟩ := a5 x (Nat.zero_le _) hx
          rw [h6, Option.some.injEq] at b1
          omega
        · cases h6
      exact ⟨key ha, key hb'⟩
    have hid : mapMM (fun (mv : Nat × Nat) => do
        let a ← rd (m''.take k) mv.1
        let b ← rd (m''.take k) mv.2
        return (a, b)) ms = .ok ms := by
      have : ms = ms.map (fun x => x) := by simp
      conv_rhs => rw [this]
      apply mapMM_eq_map
      intro mv hmv
      have key : ∀ {x : Nat}, x < k → rd (m''.take k) x = .ok x := by
        intro x hx
        apply rd_of_getElem?
        rw [List.getElem?_take, if_pos hx]
        exact a4 x (Nat.zero_le _) hx
      rw [key (hms mv hmv).1, ok_bind, key (hms mv hmv).2, ok_bind]
      rfl
    rw [hid, ok_bind]
    rfl
  | [], hp => cases hp; rfl
  | _ :: _ :: _, hp => cases hp; rfl

end KMC

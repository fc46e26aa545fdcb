import Verif.Spec.Shift
import Verif.Lemmas.Elsewhere
import Verif.Lemmas.Scratch
import Verif.Lemmas.Reverse
import Mathlib.Data.Nat.ModEq

/-!
# Translations of the lattice
-/

set_option linter.unusedSectionVars false

namespace KMC

variable {K : Type _} [Field K] [LinearOrder K] [IsStrictOrderedRing K]

namespace PyLattice

variable {P : PyLattice K} {i j k : Nat}

theorem translate_valid (hP : P.map.WF) {s : Nat} (hs : s < P.map.nSites) :
    Spec.Address.Valid P.map ⟨(P.map.cellA s + i) % P.repA, (P.map.cellB s + j) % P.repB, (P.map.cellC s + k) % P.repC,
      P.map.basisSite s⟩ := by
  have v := P.map.addr_valid hP s hs
  obtain ⟨-, hA, hB, hC⟩ := hP
  exact ⟨Nat.mod_lt _ hA, Nat.mod_lt _ hB, Nat.mod_lt _ hC, v.2.2.2⟩

theorem translate_lt (hP : P.map.WF) {s : Nat} (hs : s < P.map.nSites) : P.translate i j k s < P.map.nSites :=
  P.map.siteNo_lt _ (translate_valid hP hs)

theorem translate_addr (hP : P.map.WF) {s : Nat} (hs : s < P.map.nSites) :
    P.map.cellA (P.translate i j k s) = (P.map.cellA s + i) % P.repA ∧
    P.map.cellB (P.translate i j k s) = (P.map.cellB s + j) % P.repB ∧
    P.map.cellC (P.translate i j k s) = (P.map.cellC s + k) % P.repC ∧
    P.map.basisSite (P.translate i j k s) = P.map.basisSite s := by
  have e := P.map.addr_siteNo _ (translate_valid (i := i) (j := j) (k := k) hP hs)
  exact ⟨congrArg Spec.Address.a e, congrArg Spec.Address.b e, congrArg Spec.Address.c e, congrArg Spec.Address.l e⟩

theorem translate_inj (hP : P.map.WF) {s t : Nat} (hs : s < P.map.nSites) (ht : t < P.map.nSites)
    (h : P.translate i j k s = P.translate i j k t) : s = t := by
  obtain ⟨a1, a2, a3, a4⟩ := translate_addr (i := i) (j := j) (k := k) hP hs
  obtain ⟨b1, b2, b3, b4⟩ := translate_addr (i := i) (j := j) (k := k) hP ht
  rw [h] at a1 a2 a3 a4
  rw [b1] at a1
  rw [b2] at a2
  rw [b3] at a3
  rw [b4] at a4
  obtain ⟨v1, v2, v3, -⟩ := P.map.addr_valid hP s hs
  obtain ⟨w1, w2, w3, -⟩ := P.map.addr_valid hP t ht
  have key : ∀ {rep c d m : Nat}, c < rep → d < rep → (d + m) % rep = (c + m) % rep → c = d := by
    intro rep c d m h1 h2 h3
    have h3 : d % rep = c % rep := Nat.ModEq.add_right_cancel (Nat.ModEq.refl m) h3
    rw [Nat.mod_eq_of_lt h1, Nat.mod_eq_of_lt h2] at h3
    exact h3.symm
  rw [← P.map.siteNo_addr s, ← P.map.siteNo_addr t]
  have e1 : P.map.cellA s = P.map.cellA t := key v1 w1 a1
  have e2 : P.map.cellB s = P.map.cellB t := key v2 w2 a2
  have e3 : P.map.cellC s = P.map.cellC t := key v3 w3 a3
  have e4 : P.map.basisSite s = P.map.basisSite t := a4.symm
  unfold LatticeMap.addr
  rw [e1, e2, e3, e4]

theorem CanShift.alike {r : Nat} (h : P.CanShift r i j k) (hP : P.map.WF) {s : Nat} (hs : s < P.map.nSites) :
    P.Alike r s (P.translate i j k s) := by
  obtain ⟨a1, a2, a3, a4⟩ := translate_addr (i := i) (j := j) (k := k) hP hs
  obtain ⟨v1, v2, v3, -⟩ := P.map.addr_valid hP s hs
  have key : ∀ {per : Bool} {rep c m : Nat}, c < rep → (m = 0 ∨ (per = true ∧ r ≤ rep)) →
      AxisAlike per rep r c ((c + m) % rep) := by
    rintro per rep c m h1 (rfl | h2)
    · left
      rw [Nat.add_zero, Nat.mod_eq_of_lt h1]
    · exact .inr (.inl h2)
  refine ⟨a4.symm, ?_, ?_, ?_⟩
  · rw [a1]; exact key v1 h.1
  · rw [a2]; exact key v2 h.2.1
  · rw [a3]; exact key v3 h.2.2

/-- Displacements are the same from translated sites. -/
theorem CanShift.rel {r : Nat} (h : P.CanShift r i j k) (hP : P.map.WF) (hb : P.BasisOk) {s t : Nat}
    (hs : s < P.map.nSites) (ht : t < P.map.nSites) : P.rel (P.translate i j k s) (P.translate i j k t) = P.rel s t := by
  have hs' := translate_lt (i := i) (j := j) (k := k) hP hs
  have ht' := translate_lt (i := i) (j := j) (k := k) hP ht
  obtain ⟨a1, a2, a3, a4⟩ := translate_addr (i := i) (j := j) (k := k) hP hs
  obtain ⟨b1, b2, b3, b4⟩ := translate_addr (i := i) (j := j) (k := k) hP ht
  obtain ⟨v1, v2, v3, -⟩ := P.map.addr_valid hP s hs
  obtain ⟨w1, w2, w3, -⟩ := P.map.addr_valid hP t ht
  have ps := pos_range hP hb hs
  have pt := pos_range hP hb ht
  have ps' := pos_range hP hb hs'
  have pt' := pos_range hP hb ht'
  have key : ∀ {per : Bool} {rep c d m : Nat} {x y : K}, c < rep → d < rep → (m = 0 ∨ (per = true ∧ r ≤ rep)) →
      (0 ≤ x + c ∧ x + c < rep) → (0 ≤ y + d ∧ y + d < rep) →
      (0 ≤ x + ((c + m) % rep : Nat) ∧ x + ((c + m) % rep : Nat) < rep) →
      (0 ≤ y + ((d + m) % rep : Nat) ∧ y + ((d + m) % rep : Nat) < rep) →
      wrapAxis per rep (y + ((d + m) % rep : Nat) - (x + ((c + m) % rep : Nat))) = wrapAxis per rep (y + d - (x + c)) := by
    rintro per rep c d m x y h1 h2 (rfl | ⟨rfl, -⟩) q1 q2 q3 q4
    · rw [Nat.add_zero, Nat.add_zero, Nat.mod_eq_of_lt h1, Nat.mod_eq_of_lt h2]
    · unfold wrapAxis
      simp only [if_true]
      refine wrapComp_congr (by omega) ⟨by linarith, by linarith⟩ ⟨by linarith, by linarith⟩
        (m := ((c + m) / rep : Nat) - ((d + m) / rep : Nat)) ?_
      have e1 : ((d + m : Nat) : K) = ((d + m) % rep : Nat) + rep * ((d + m) / rep : Nat) := by
        exact_mod_cast (Nat.mod_add_div (d + m) rep).symm
      have e2 : ((c + m : Nat) : K) = ((c + m) % rep : Nat) + rep * ((c + m) / rep : Nat) := by
        exact_mod_cast (Nat.mod_add_div (c + m) rep).symm
      generalize (d + m) / rep = u at e1 ⊢
      generalize (c + m) / rep = w at e2 ⊢
      push_cast at e1 e2 ⊢
      linear_combination e2 - e1
  unfold PyLattice.rel
  rw [wrap_eq, wrap_eq]
  unfold pos at ps pt ps' pt' ⊢
  rw [a1, a2, a3, a4] at ps' ⊢
  rw [b1, b2, b3, b4] at pt' ⊢
  ext
  · exact key v1 w1 h.1 ps.1 pt.1 ps'.1 pt'.1
  · exact key v2 w2 h.2.1 ps.2.1 pt.2.1 ps'.2.1 pt'.2.1
  · exact key v3 w3 h.2.2 ps.2.2 pt.2.2 ps'.2.2 pt'.2.2

theorem CanShift.neighbours {r : Nat} (h : P.CanShift r i j k) (hP : P.map.WF) (hb : P.BasisOk) (hnd : P.basis.Nodup)
    {s : Nat} (hs : s < P.map.nSites) :
    P.map.neighbourIndices (P.translate i j k s) r = (P.map.neighbourIndices s r).map (P.translate i j k) := by
  have hs' := translate_lt (i := i) (j := j) (k := k) hP hs
  have e := P.rel_neighbours hP hb hs hs' (h.alike hP hs)
  apply List.ext_getElem?
  intro m
  have e := congrArg (fun l => l[m]?) e
  simp only [List.getElem?_map] at e ⊢
  cases h1 : (P.map.neighbourIndices s r)[m]? with
  | none =>
    rw [h1] at e
    simpa using e.symm
  | some t =>
    rw [h1] at e
    obtain ⟨t', h2, h3⟩ := Option.map_eq_some_iff.1 e.symm
    rw [h2, Option.map_some, Option.some.injEq]
    have ht := ((P.map.mem_neighbourIndices hP _ _ _ hs).1 (List.mem_of_getElem? h1)).1
    have ht' := ((P.map.mem_neighbourIndices hP _ _ _ hs').1 (List.mem_of_getElem? h2)).1
    exact P.rel_inj hP hb hnd hs' ht' (translate_lt hP ht) (by rw [h3, h.rel hP hb hs ht])

end PyLattice

/-- The entries are at the same displacement, and the second one is on the translated site. -/
structure Translated (τ : Nat → Nat) (e e' : CEntry K) : Prop where
  index : e'.index = τ e.index
  coord : e'.coord = e.coord
  distance : e'.distance = e.distance

section
variable {env : Env K} {n nT : Nat} {cfg cfg1 : Config K} {procs : List (Proc K)} {P : PyLattice K} {i j k : Nat}

/-- The surroundings of translated sites. -/
theorem lists_carried {range : Nat} (h : Lists env n range cfg cfg1) (hL : env.L = P.map) (hc : cfg.coords = P.sites)
    (hP : P.map.WF) (hb : P.BasisOk) (hnd : P.basis.Nodup) (hn : P.map.nSites = n) (hs : P.CanShift range i j k) {site : Nat}
    {sk sk' : List (CEntry K)} (h1 : cfg1.matchLists[site]? = some sk)
    (h2 : cfg1.matchLists[P.translate i j k site]? = some sk') :
    List.Forall₂ (Translated (P.translate i j k)) sk sk' := by
  have hi : site < n := by rw [← h.shape.matchLists]; exact (List.getElem?_eq_some_iff.1 h1).1
  have hiP : site < P.map.nSites := by rw [hn]; exact hi
  have hi' := PyLattice.translate_lt (i := i) (j := j) (k := k) hP hiP
  obtain ⟨l, center, l1, l2, -, l4⟩ := h.list site hi
  obtain ⟨l', center', l1', l2', -, l4'⟩ := h.list _ (by rw [← hn]; exact hi')
  rw [h1, Option.some.injEq] at l2
  rw [h2, Option.some.injEq] at l2'
  subst l2 l2'
  unfold sortC
  apply forall₂_insertionSort (fun a b => CEntry.lt b a = false)
  · intro a a' b b' ha hb
    unfold CEntry.lt
    rw [ha.distance, ha.coord, hb.distance, hb.coord]
  · rw [hL, hs.neighbours hP hb hnd hiP] at l4'
    rw [hL] at l4
    rw [hc, P.sites_eq_pos hP hiP, Option.some.injEq] at l1
    rw [hc, P.sites_eq_pos hP hi', Option.some.injEq] at l1'
    subst l1 l1'
    rw [List.forall₂_iff_get] at l4 l4' ⊢
    obtain ⟨m1, m2⟩ := l4
    obtain ⟨m1', m2'⟩ := l4'
    rw [List.length_map] at m1'
    refine ⟨by rw [← m1, ← m1'], ?_⟩
    intro q hq hq'
    have hqn : q < (P.map.neighbourIndices site range).length := by rw [m1]; exact hq
    have x1 := m2 q hqn hq
    have x2 := m2' q (by rw [List.length_map]; exact hqn) hq'
    simp only [List.get_eq_getElem, List.getElem_map] at x1 x2 ⊢
    have ht := ((P.map.mem_neighbourIndices hP _ _ _ hiP).1 (List.getElem_mem hqn)).1
    have ht' := PyLattice.translate_lt (i := i) (j := j) (k := k) hP ht
    obtain ⟨c, c1, c2⟩ := x1.coord
    obtain ⟨c', c1', c2'⟩ := x2.coord
    rw [hc, P.sites_eq_pos hP ht, Option.some.injEq] at c1
    rw [hc, P.sites_eq_pos hP ht', Option.some.injEq] at c1'
    subst c1 c1'
    have hco : l'[q].coord = l[q].coord := by
      rw [c2, c2']
      exact hs.rel hP hb hiP ht
    exact ⟨by rw [x1.index, x2.index], hco, by rw [x1.distance, x2.distance, hco]⟩

/-- What is seen from translated sites. -/
theorem seen_carried {τ : Nat → Nat} {sk sk' : List (CEntry K)} (h : List.Forall₂ (Translated τ) sk sk')
    {types types' : List Bucket} (ht : ∀ e ∈ sk, types'[τ e.index]? = types[e.index]?) :
    List.Forall₂ (fun e e' => Translated τ e e' ∧ e'.matchTypes = e.matchTypes) (seen types sk) (seen types' sk') := by
  induction h with
  | nil => exact .nil
  | @cons e e' l l' he _ ih =>
    refine .cons ⟨⟨he.index, he.coord, he.distance⟩, ?_⟩ (ih fun x hx => ht x (by simp [hx]))
    show types'.getD e'.index [] = types.getD e.index []
    rw [List.getD_eq_getElem?_getD, List.getD_eq_getElem?_getD, he.index, ht e (by simp)]

theorem whateverMatch_carried {τ : Nat → Nat} {l l' : List (CEntry K)}
    (h : List.Forall₂ (fun e e' => Translated τ e e' ∧ e'.matchTypes = e.matchTypes) l l') (ps : List (PEntry K)) :
    whateverMatch ps l' = whateverMatch ps l := by
  unfold whateverMatch
  rw [h.length_eq]
  split
  · rfl
  clear * - h
  induction h generalizing ps with
  | nil => rfl
  | @cons e e' l l' he _ ih =>
    cases ps with
    | nil => rfl
    | cons p ps =>
      have : p.matches? e' = p.matches? e := by
        unfold PEntry.matches? samePoint
        rw [he.1.coord, he.1.distance, he.2]
      unfold matchPrefix
      rw [this, ih]

/-- The entries within the cutoff. -/
theorem withinCutoff_carried {τ : Nat → Nat} {l l' : List (CEntry K)}
    (h : List.Forall₂ (fun e e' => Translated τ e e' ∧ e'.matchTypes = e.matchTypes) l l') (c : K) :
    List.Forall₂ (fun e e' => Translated τ e e' ∧ e'.matchTypes = e.matchTypes) (Matcher.withinCutoff c l)
      (Matcher.withinCutoff c l') := by
  unfold Matcher.withinCutoff
  induction h with
  | nil => exact .nil
  | @cons e e' l l' he _ ih =>
    rw [List.takeWhile_cons, List.takeWhile_cons, he.1.distance]
    split
    · exact .cons he ih
    · exact .nil

theorem mapMM_carried {α β : Type _} {R : α → α → Prop} {f g : α → M β} {l l' : List α} (h : List.Forall₂ R l l')
    (hfg : ∀ a ∈ l, ∀ a', R a a' → g a' = f a) : mapMM g l' = mapMM f l := by
  induction h with
  | nil => rfl
  | @cons e e' l l' he _ ih =>
    rw [mapMM_cons, mapMM_cons, hfg e (by simp) e' he, ih fun a ha => hfg a (by simp [ha])]

/-- The updates told to the rate calculator do not depend on the elements. -/
theorem afterStep_updates {cfg cfg' : Config K} : ∀ (es : List (PEntry K × Nat)) (u : List Bucket) (b b' : List String)
    (r r' : List Bucket × List String), loopM (Matcher.afterStep cfg) es (u, b) = .ok r →
      loopM (Matcher.afterStep cfg') es (u, b') = .ok r' → r'.1 = r.1 := by
  have key : ∀ (c : Config K) (st : List Bucket × List String) (e : PEntry K × Nat) (r : List Bucket × List String),
      Matcher.afterStep c st e = .ok r → wr st.1 e.2 e.1.updateTypes = .ok r.1 := by
    intro c st e r h
    unfold Matcher.afterStep at h
    obtain ⟨u, hu, h⟩ := bind_ok.1 h
    rw [hu]
    split at h
    · obtain ⟨w, -, h⟩ := bind_ok.1 h
      split at h
      · split at h
        · obtain ⟨nm, -, h⟩ := bind_ok.1 h
          obtain ⟨af, -, h⟩ := bind_ok.1 h
          rw [← Except.ok.inj h]
        · rw [← Except.ok.inj h]
      · rw [← Except.ok.inj h]
    · rw [← Except.ok.inj h]
  intro es
  induction es with
  | nil =>
    intro u b b' r r' h h'
    rw [loopM_nil] at h h'
    rw [← Except.ok.inj h, ← Except.ok.inj h']
  | cons e es ih =>
    intro u b b' r r' h h'
    rw [loopM_cons, bind_ok] at h h'
    obtain ⟨x, h1, h2⟩ := h
    obtain ⟨x', h1', h2'⟩ := h'
    have e1 := key _ _ _ _ h1
    have e2 := key _ _ _ _ h1'
    rw [show (u, b).1 = (u, b').1 from rfl, e2] at e1
    obtain ⟨u1, b1⟩ := x
    obtain ⟨u2, b2⟩ := x'
    obtain rfl : u2 = u1 := Except.ok.inj e1
    exact ih _ _ _ _ _ h2 h2'

/-- What the rate calculator is told about a site and about the translated site. -/
theorem rateArgsOn_carried {τ : Nat → Nat} {c c' : Config K} {l l' : List (CEntry K)} {p p' : Proc K} {i i' : Nat}
    (h : List.Forall₂ (fun e e' => Translated τ e e' ∧ e'.matchTypes = e.matchTypes) l l')
    (ht : ∀ e ∈ l, c'.types[τ e.index]? = c.types[e.index]?)
    (he : p.bucketProcess = true ∨ ∀ e ∈ l, c'.elements[τ e.index]? = c.elements[e.index]?)
    (hn : c'.typeNames = c.typeNames) (hp : p'.matchList = p.matchList) (hcut : p'.cutoff = p.cutoff)
    (hb : p'.bucketProcess = p.bucketProcess) (hr : p'.rate = p.rate) (hnum : p'.number = p.number) {a a' : RateArgs K}
    (ha : Matcher.rateArgsOn c l p i = .ok a) (ha' : Matcher.rateArgsOn c' l' p' i' = .ok a') : a'.anywhere = a.anywhere := by
  have hnear := withinCutoff_carried h p.cutoff
  have hsub : ∀ e ∈ Matcher.withinCutoff p.cutoff l, e ∈ l := fun e he => (List.takeWhile_sublist _).mem he
  unfold Matcher.rateArgsOn at ha ha'
  rw [hcut, hp, hb, hr, hnum, hn] at ha'
  dsimp only at ha ha'
  have e1 : mapMM (Matcher.occupation c') (Matcher.withinCutoff p.cutoff l') =
      mapMM (Matcher.occupation c) (Matcher.withinCutoff p.cutoff l) := by
    refine mapMM_carried hnear fun e he e' hee => ?_
    unfold Matcher.occupation rd
    rw [hee.1.index, ht e (hsub e he)]
  have e2 : (Matcher.withinCutoff p.cutoff l').map (·.coord) = (Matcher.withinCutoff p.cutoff l).map (·.coord) := by
    clear * - hnear
    generalize Matcher.withinCutoff p.cutoff l = a at hnear
    generalize Matcher.withinCutoff p.cutoff l' = b at hnear
    induction hnear with
    | nil => rfl
    | cons he _ ih => rw [List.map_cons, List.map_cons, ih, he.1.coord]
  rw [e1, e2, ← hnear.length_eq] at ha'
  obtain ⟨before, a1, ha⟩ := bind_ok.1 ha
  obtain ⟨occ, a2, ha⟩ := bind_ok.1 ha
  obtain ⟨occ0, a3, ha⟩ := bind_ok.1 ha
  obtain ⟨st, a4, ha⟩ := bind_ok.1 ha
  obtain ⟨g, a5, ha⟩ := bind_ok.1 ha
  obtain ⟨before', b1, ha'⟩ := bind_ok.1 ha'
  rw [a2, ok_bind, a3, ok_bind] at ha'
  obtain ⟨st', b4, ha'⟩ := bind_ok.1 ha'
  obtain ⟨g', b5, ha'⟩ := bind_ok.1 ha'
  rcases he with hbk | he
  · rw [hbk, if_neg (by simp)] at ha ha'
    rw [← Except.ok.inj ha, ← Except.ok.inj ha', afterStep_updates _ _ _ _ _ _ a4 b4]
    rfl
  · have e3 : mapMM (Matcher.firstElement c') (Matcher.withinCutoff p.cutoff l') =
        mapMM (Matcher.firstElement c) (Matcher.withinCutoff p.cutoff l) := by
      refine mapMM_carried hnear fun e hm e' hee => ?_
      unfold Matcher.firstElement rd
      rw [hee.1.index, he e (hsub e hm)]
    rw [e3, a1] at b1
    obtain rfl := Except.ok.inj b1
    have e4 : Matcher.afterStep c' = Matcher.afterStep c := by
      funext st e
      unfold Matcher.afterStep
      rw [hn]
    rw [e4, a4] at b4
    obtain rfl := Except.ok.inj b4
    split at ha
    · rename_i hbf
      rw [if_pos hbf] at ha'
      rw [← Except.ok.inj ha, ← Except.ok.inj ha']
      rfl
    · rename_i hbf
      rw [if_neg hbf] at ha'
      rw [← Except.ok.inj ha, ← Except.ok.inj ha']
      rfl

end
end KMC

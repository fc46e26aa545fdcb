import Verif.Lemmas.Matching
import Verif.Lemmas.Translation
import Verif.Samples.Basic
import Mathlib.Tactic.NormNum
import Mathlib.Tactic.Positivity

/-!
# C10 (offered exactly when the pattern is there), C11 (open boundaries), C12 (wildcards),
# C13 (range)
-/

set_option linter.unusedSectionVars false

namespace KMC

variable {K : Type _} [Field K] [LinearOrder K]

/-- A pattern entry accepts the types present at a site: it is a wildcard, or no type is required
more often than present. -/
def Accepts (e : PEntry K) (present : Bucket) : Prop :=
  e.matchTypes[0]? = some 1 ∨
    ∀ (i : Nat) (x y : Int), e.matchTypes[i]? = some x → present[i]? = some y → x ≤ y

/-! ## C10 -/

/-- **C10**, no false offers: whatever the environment (any lattice, boundary, tolerance situation),
when the matcher accepts an aligned process, each explicit entry that is not a wildcard finds, within
the tolerance, a site of the environment at its position with the required types. -/
theorem C10_no_false_offer (cfg : Config K) (L : LatticeMap) (p p' : Proc K)
    (hp : Interactions.updateMatchListOf cfg L p = .ok p') (n : Nat) (hn : 0 < n)
    (hps : ∀ e ∈ p.matchList, e.matchTypes.length = n)
    (hcfg : ∀ l ∈ cfg.matchLists, ∀ c ∈ l, c.matchTypes.length = n)
    (env : List (CEntry K)) (henv : ∀ c ∈ env, c.matchTypes.length = n)
    (h : whateverMatch p'.matchList env = .ok true) :
    ∀ e ∈ p.matchList, e.matchTypes[0]? ≠ some 1 →
      ∃ c ∈ env, (|c.distance - e.distance| ≤ 1 / 100000 ∧ |c.coord.x - e.coord.x| ≤ 1 / 100000 ∧
        |c.coord.y - e.coord.y| ≤ 1 / 100000 ∧ |c.coord.z - e.coord.z| ≤ 1 / 100000) ∧
        Accepts e c.matchTypes := by
  have key : p.matchList.Sublist p'.matchList ∧ SizedP n p'.matchList := by
    unfold Interactions.updateMatchListOf at hp
    split at hp
    · rw [bind_ok] at hp
      obtain ⟨idx, -, hp⟩ := hp
      rw [bind_ok] at hp
      obtain ⟨cml, hcml, hp⟩ := hp
      rw [bind_ok] at hp
      obtain ⟨r, hr, hp⟩ := hp
      dsimp only at hp
      rw [bind_ok] at hp
      obtain ⟨ids, -, hp⟩ := hp
      cases hp
      have ha := alignLoop_aligned hr
      exact ⟨ha.sublist.1, ha.sized hps (hcfg _ (List.mem_of_getElem? (rd_ok.1 hcml)))⟩
    · cases hp
      exact ⟨List.Sublist.refl _, hps⟩
  obtain ⟨r, hr, hr'⟩ := whateverMatch_ok hn p'.matchList env key.2 henv
  rw [h] at hr
  cases hr
  obtain ⟨e1, e2, rfl, hf⟩ := hr'.1 rfl
  intro e he hw
  obtain ⟨k, hk, hke⟩ := List.getElem_of_mem (key.1.subset he)
  have hk' : k < e1.length := by rw [← hf.length_eq]; exact hk
  have := List.Forall₂.get hf hk hk'
  simp only [List.get_eq_getElem, hke] at this
  rcases this with h1 | ⟨h1, h2⟩
  · exact absurd h1 hw
  · refine ⟨e1[k], by simp, ?_, .inr h2⟩
    unfold samePoint ptSame at h1
    split_ifs at h1 with a b c d
    exact ⟨not_lt.1 a, not_lt.1 b, not_lt.1 c, not_lt.1 d⟩

section
variable [IsStrictOrderedRing K]

theorem env_points (dist : Coord K → K) (P : PyLattice K) (hP : P.map.WF) (cfg : Config K)
    (hcoords : cfg.coords = P.sites) {s : Nat} (hs : s < P.map.nSites) {r : Nat}
    {center : Coord K} (hc : cfg.coords[s]? = some center) {l : List (CEntry K)}
    (hf : List.Forall₂ (Config.EntryFor dist P.map cfg center) (P.map.neighbourIndices s r) l) :
    l.map CEntry.pt = ((P.map.neighbourIndices s r).map (P.rel s)).map (fun c => (dist c, c)) ∧
    ∀ e ∈ l, e.index ∈ P.map.neighbourIndices s r ∧ e.coord = P.rel s e.index ∧
      cfg.types[e.index]? = some e.matchTypes := by
  have hcen : center = P.pos s := by
    rw [hcoords, P.sites_eq_pos hP hs] at hc; exact (Option.some.inj hc).symm
  have hmem : ∀ i ∈ P.map.neighbourIndices s r, i < P.map.nSites :=
    fun i hi => ((P.map.mem_neighbourIndices hP _ _ _ hs).1 hi).1
  have one : ∀ i e, i < P.map.nSites → Config.EntryFor dist P.map cfg center i e →
      e.coord = P.rel s i := by
    intro i e hi h
    obtain ⟨c, h1, h2⟩ := h.coord
    rw [hcoords, P.sites_eq_pos hP hi, Option.some.injEq] at h1
    rw [h2, ← h1, hcen]
    rfl
  generalize P.map.neighbourIndices s r = is at hf hmem
  induction hf with
  | nil => simp
  | @cons i e is l h _ ih =>
    have ih' := ih (fun i hi => hmem i (by simp [hi]))
    have hi := hmem i (by simp)
    refine ⟨?_, ?_⟩
    · simp only [List.map_cons, ih'.1]
      congr 1
      unfold CEntry.pt
      rw [h.distance, one i e hi h]
    · intro x hx
      rcases List.mem_cons.1 hx with rfl | hx
      · rw [h.index]
        exact ⟨by simp, one i x hi h, h.types⟩
      · obtain ⟨a, b⟩ := ih'.2 x hx
        exact ⟨by simp [a], b⟩

/-- **C10** With implicit wildcards, at a site of its basis a process is accepted by the matcher exactly
when for each of its explicit coordinates there is a site at that relative (minimum image) position
with the required types.

`cfg0` is the configuration at construction (used to insert the wildcards), `cfg` the present one.
The site must see its surroundings like the central cell does: along each axis it lies in the central
cell, or the axis is periodic and at least `r` long, or both cells are `r` away from the open ends.
Missing: sites near open ends, where the claim is false (`C11_false_negative_at_open_boundary`);
distances or explicit coordinates that coincide only up to the tolerance; buckets of unequal size. -/
theorem C10_offered_iff_partial (dist : Coord K → K) (P : PyLattice K) (hP : P.map.WF)
    (hb : ∀ b ∈ P.basis, (0 ≤ b.x ∧ b.x < 1) ∧ (0 ≤ b.y ∧ b.y < 1) ∧ (0 ≤ b.z ∧ b.z < 1))
    (hnd : P.basis.Nodup) (n : Nat) (hn : 0 < n) (r : Nat)
    (cfg0 cfg1 cfg : Config K)
    (hs0 : cfg0.Shape P.map.nSites) (hc0 : cfg0.coords = P.sites)
    (ht0 : ∀ t ∈ cfg0.types, t.length = n) (h1 : cfg0.initMatchLists dist P.map r = .ok cfg1)
    (hs : cfg.Shape P.map.nSites) (hc : cfg.coords = P.sites) (ht : ∀ t ∈ cfg.types, t.length = n)
    (p p' : Proc K) (b : Nat) (hpb : p.basisSites = [b])
    (hpn : ∀ e ∈ p.matchList, e.matchTypes.length = n)
    (hpd : ∀ e ∈ p.matchList, e.distance = dist e.coord)
    (entries : List (PEntry K)) (hpl : p.matchList = sortP entries)
    (hpnd : (entries.map (·.coord)).Nodup)
    (hp : Interactions.updateMatchListOf cfg1 P.map p = .ok p')
    (s : Nat) (hsn : s < P.map.nSites) (hsb : P.map.basisSite s = b)
    (halike : AxisAlike P.perA P.repA r (P.map.cellA s) (P.repA / 2) ∧
      AxisAlike P.perB P.repB r (P.map.cellB s) (P.repB / 2) ∧
      AxisAlike P.perC P.repC r (P.map.cellC s) (P.repC / 2))
    (hexact : ∀ e ∈ p.matchList, ∀ t ∈ P.map.neighbourIndices s r, ∀ cs ct, P.sites[s]? = some cs →
      P.sites[t]? = some ct →
      ptSame e.distance e.coord (dist (P.map.wrap (ct - cs))) (P.map.wrap (ct - cs)) = true →
      e.coord = P.map.wrap (ct - cs))
    (hsep : Separated (fun d => (∃ e ∈ p.matchList, d = e.distance) ∨
      ∃ t ∈ P.map.neighbourIndices s r, ∃ cs ct, P.sites[s]? = some cs ∧ P.sites[t]? = some ct ∧
        d = dist (P.map.wrap (ct - cs))))
    (env : List (CEntry K))
    (henv : cfg.configMatchList dist P.map s (P.map.neighbourIndices s r) = .ok env) :
    ∃ res, whateverMatch p'.matchList env = .ok res ∧ (res = true ↔
      ∀ e ∈ p.matchList, ∃ (t : Nat) (cs ct : Coord K) (present : Bucket), t ∈ P.map.neighbourIndices s r ∧
        P.sites[s]? = some cs ∧ P.sites[t]? = some ct ∧ P.map.wrap (ct - cs) = e.coord ∧
        cfg.types[t]? = some present ∧ Accepts e present) := by
  have hmem : ∀ s' < P.map.nSites, ∀ i ∈ P.map.neighbourIndices s' r, i < P.map.nSites :=
    fun s' hs' i hi => ((P.map.mem_neighbourIndices hP _ _ _ hs').1 hi).1
  -- the environment of s
  obtain ⟨l, cen, hcen, hok, hf⟩ := Config.configMatchList_ok (dist := dist) (L := P.map) hs hsn
    (hmem s hsn)
  rw [hok] at henv
  cases henv
  obtain ⟨hlpts, hlent⟩ := env_points dist P hP cfg hc hsn hcen hf
  -- the central environment
  have vs := P.map.addr_valid hP s hsn
  have hbl : b < P.map.nBasis := by rw [← hsb]; exact vs.2.2.2
  set adr : Spec.Address := ⟨P.repA / 2, P.repB / 2, P.repC / 2, b⟩ with hadr
  have vadr : adr.Valid P.map := by
    obtain ⟨-, hA, hB, hC⟩ := hP
    exact ⟨Nat.div_lt_self hA (by omega), Nat.div_lt_self hB (by omega), Nat.div_lt_self hC (by omega), hbl⟩
  have hcn := P.map.siteNo_lt adr vadr
  have hadr' := P.map.addr_siteNo adr vadr
  set c0 := P.map.siteNo adr with hc0def
  have hcA : P.map.cellA c0 = P.repA / 2 := congrArg Spec.Address.a hadr'
  have hcB : P.map.cellB c0 = P.repB / 2 := congrArg Spec.Address.b hadr'
  have hcC : P.map.cellC c0 = P.repC / 2 := congrArg Spec.Address.c hadr'
  have hcL : P.map.basisSite c0 = b := congrArg Spec.Address.l hadr'
  obtain ⟨cfg1', h1', -, -, -, hlists⟩ := Config.initMatchLists_ok (dist := dist) hP hs0 rfl r
  rw [h1] at h1'
  cases h1'
  obtain ⟨l0, cen0, hcen0, hml0, -, hf0⟩ := hlists c0 hcn
  obtain ⟨hl0pts, hl0ent⟩ := env_points dist P hP cfg0 hc0 hcn hcen0 hf0
  have halike' : P.Alike r s c0 := by
    refine ⟨by rw [hsb, hcL], ?_, ?_, ?_⟩
    · rw [hcA]; exact halike.1
    · rw [hcB]; exact halike.2.1
    · rw [hcC]; exact halike.2.2
  have hrel := P.rel_neighbours hP hb hsn hcn halike'
  have hpts : (sortC l).map CEntry.pt = (sortC l0).map CEntry.pt := by
    rw [pts_sortC, pts_sortC, hlpts, hl0pts, hrel]
  -- unfold the wildcard insertion
  unfold Interactions.updateMatchListOf at hp
  rw [hpb] at hp
  simp only at hp
  rw [show P.map.repA = P.repA from rfl, show P.map.repB = P.repB from rfl,
    show P.map.repC = P.repC from rfl] at hp
  rw [rd_of_getElem? (P.map.getElem?_indicesFromCell adr hbl), ok_bind,
    rd_of_getElem? hml0, ok_bind, bind_ok] at hp
  obtain ⟨al, hal, hp⟩ := hp
  rw [bind_ok] at hp
  obtain ⟨ids, -, hp⟩ := hp
  cases hp
  have hA := alignLoop_aligned hal
  have hsc : SizedC n (sortC l) := by
    intro c hcm
    exact ht _ (List.mem_of_getElem? (hlent c ((perm_sortC l).mem_iff.1 hcm)).2.2)
  have hsc0 : SizedC n (sortC l0) := by
    intro c hcm
    exact ht0 _ (List.mem_of_getElem? (hl0ent c ((perm_sortC l0).mem_iff.1 hcm)).2.2)
  obtain ⟨res, hres, hiff⟩ := whateverMatch_ok hn al.1 (sortC l) (hA.sized hpn hsc0) hsc
  refine ⟨res, hres, ?_⟩
  rw [hiff]
  have hpos : ∀ i < P.map.nSites, P.sites[i]? = some (P.pos i) := fun i hi => P.sites_eq_pos hP hi
  -- exactness
  have hex : ∀ e ∈ p.matchList, ∀ c ∈ sortC l, samePoint e c = true → e.coord = c.coord := by
    intro e he c hcm hsp
    obtain ⟨hi, hcc, -⟩ := hlent c ((perm_sortC l).mem_iff.1 hcm)
    have hcd : c.distance = dist c.coord := by
      have : c.pt ∈ l.map CEntry.pt := List.mem_map_of_mem ((perm_sortC l).mem_iff.1 hcm)
      rw [hlpts, List.mem_map] at this
      obtain ⟨x, -, hx⟩ := this
      have h1 := congrArg Prod.fst hx
      have h2 := congrArg Prod.snd hx
      simp only [CEntry.pt] at h1 h2
      rw [← h1, ← h2]
    have := hexact e he c.index hi _ _ (hpos s hsn) (hpos _ (hmem s hsn _ hi))
    rw [show P.map.wrap (P.pos c.index - P.pos s) = c.coord from hcc.symm] at this
    unfold samePoint at hsp
    rw [hcd] at hsp
    exact this hsp
  have hcompat : Compat p.matchList ((sortC l0).map CEntry.pt) := by
    rw [← hpts]
    have hS := hsep
    apply compat_of_sorted
    · -- explicit entries strictly ordered
      have hw := sortPts_pairwise hS (entries.map PEntry.pt) (by
        intro q hq
        obtain ⟨e, he, rfl⟩ := List.mem_map.1 hq
        exact .inl ⟨e, by rw [hpl]; exact (perm_sortP entries).mem_iff.2 he, rfl⟩)
      rw [← pts_sortP, ← hpl] at hw
      have hnodup : (p.matchList.map PEntry.pt).Nodup := by
        have h1 : (p.matchList.map (·.coord)).Nodup := by
          rw [hpl]
          exact ((perm_sortP entries).map _).nodup_iff.2 hpnd
        have h2 : (p.matchList.map PEntry.pt).map Prod.snd = p.matchList.map (·.coord) := by
          rw [List.map_map]; rfl
        rw [← h2] at h1
        exact List.Nodup.of_map _ h1
      refine List.Pairwise.imp_of_mem ?_ (hw.and hnodup)
      rintro a c - - ⟨h | h, hne⟩
      · exact h
      · exact absurd h hne
    · have hw := sortPts_pairwise hS (l.map CEntry.pt) (by
        intro q hq
        rw [hlpts, List.map_map] at hq
        obtain ⟨t, ht, rfl⟩ := List.mem_map.1 hq
        exact .inr ⟨t, ht, _, _, hpos s hsn, hpos t (hmem s hsn t ht), rfl⟩)
      rwa [← pts_sortC] at hw
    · intro e he c hcm hsp
      obtain ⟨x, hx, rfl⟩ := List.mem_map.1 hcm
      have hcoord := hex e he x hx hsp
      have hcd : x.distance = dist x.coord := by
        have : x.pt ∈ l.map CEntry.pt := List.mem_map_of_mem ((perm_sortC l).mem_iff.1 hx)
        rw [hlpts, List.mem_map] at this
        obtain ⟨y, -, hy⟩ := this
        have h1 := congrArg Prod.fst hy
        have h2 := congrArg Prod.snd hy
        simp only [CEntry.pt] at h1 h2
        rw [← h1, ← h2]
      unfold PEntry.pt CEntry.pt
      rw [hpd e he, hcd, hcoord]
  have hone : OneSite p.matchList (sortC l) := by
    intro e he c hcm d hdm h1 h2
    obtain ⟨hi, hcc, htc⟩ := hlent c ((perm_sortC l).mem_iff.1 hcm)
    obtain ⟨hj, hdd, htd⟩ := hlent d ((perm_sortC l).mem_iff.1 hdm)
    have e1 := hex e he c hcm h1
    have e2 := hex e he d hdm h2
    have : c.index = d.index := P.rel_inj hP hb hnd hsn (hmem s hsn _ hi) (hmem s hsn _ hj) (by
      rw [← hcc, ← hdd, ← e1, ← e2])
    rw [this, htd] at htc
    exact (Option.some.inj htc).symm
  rw [aligned_match hA hpts hcompat hone]
  constructor
  · intro hall e he
    obtain ⟨c, hcm, hsp, hfit⟩ := hall e he
    obtain ⟨hi, hcc, htc⟩ := hlent c ((perm_sortC l).mem_iff.1 hcm)
    refine ⟨c.index, P.pos s, P.pos c.index, c.matchTypes, hi, hpos s hsn, hpos _ (hmem s hsn _ hi),
      ?_, htc, ?_⟩
    · rw [hex e he c hcm hsp, hcc]
      rfl
    · rcases hfit with h | ⟨-, h⟩
      · exact .inl h
      · exact .inr h
  · intro hall e he
    obtain ⟨t, cs, ct, present, htn, hcs, hct, hw, hpres, hacc⟩ := hall e he
    rw [hpos s hsn, Option.some.injEq] at hcs
    rw [hpos t (hmem s hsn _ htn), Option.some.injEq] at hct
    subst hcs hct
    -- the entry of t
    have : (dist (P.rel s t), P.rel s t) ∈ l.map CEntry.pt := by
      rw [hlpts, List.map_map]
      exact List.mem_map.2 ⟨t, htn, rfl⟩
    obtain ⟨c, hcl, hcpt⟩ := List.mem_map.1 this
    have hcm : c ∈ sortC l := (perm_sortC l).mem_iff.2 hcl
    obtain ⟨hi, hcc, htc⟩ := hlent c hcl
    have hcd : c.distance = dist (P.rel s t) := congrArg Prod.fst hcpt
    have hccoord : c.coord = P.rel s t := congrArg Prod.snd hcpt
    have hidx : c.index = t := P.rel_inj hP hb hnd hsn (hmem s hsn _ hi) (hmem s hsn _ htn) (by
      rw [← hcc, hccoord])
    have hrel' : P.rel s t = e.coord := hw
    have hsp : samePoint e c = true := by
      unfold samePoint ptSame
      rw [hcd, hccoord, hrel', hpd e he]
      have : (0 : K) ≤ epsi := epsi_pos.le
      simp [not_lt.2 this]
    rw [hidx, hpres, Option.some.injEq] at htc
    refine ⟨c, hcm, hsp, ?_⟩
    rcases hacc with h | h
    · exact .inl h
    · exact .inr ⟨hsp, by rw [← htc]; exact h⟩

end

/-! ## C10, C11: examples -/

section
open Sample

/-- On a periodic chain of five sites with elements B, A, B, A, A (site 4 next to site 0 through the
boundary), the process "A with B to the right" is available exactly at the sites 1 and 4. -/
example : (start (chain 5 true) [["B"], ["A"], ["B"], ["A"], ["A"]]
      (do return [← process [0, 1] ["A", "B"] ["B", "A"] 1 [0] [] 0])).map
    (fun s => s.ms.procs.map (·.sites)) = .ok [[1, 4]] := by decide +kernel

/-- The hypotheses of `C10_offered_iff_partial` about the site hold for every site of this chain. -/
example : ∀ s < 5, AxisAlike true 5 1 ((chain 5 true).map.cellA s) (5 / 2) ∧
    AxisAlike false 1 1 ((chain 5 true).map.cellB s) (1 / 2) ∧
    AxisAlike false 1 1 ((chain 5 true).map.cellC s) (1 / 2) := by
  intro s hs
  refine ⟨.inr (.inl ⟨rfl, by omega⟩), .inl ?_, .inl ?_⟩
  · have := (chain 5 true).map.cellB_lt (by decide) s
    have h1 : (chain 5 true).map.repB = 1 := rfl
    omega
  · have := (chain 5 true).map.cellC_lt (by decide) s
    have h1 : (chain 5 true).map.repC = 1 := rfl
    omega

/-- **C11** is false: on an open chain of five sites with elements A, B, A, B, A the process "A with B
to the right" is offered at site 2 only, although site 0 has type A and its right neighbour, at
relative position (1, 0, 0), has type B. (The wildcard inserted for the left neighbour of the central
site has nothing to match at site 0.) -/
theorem C11_false_negative_at_open_boundary :
    ∃ s : Sim ℚ, start (chain 5 false) [["A"], ["B"], ["A"], ["B"], ["A"]]
        (do return [← process [0, 1] ["A", "B"] ["B", "A"] 1 [0] [] 0]) = .ok s ∧
      s.ms.procs.map (·.sites) = [[2]] ∧
      s.ms.cfg.elements[0]? = some ["A"] ∧ s.ms.cfg.elements[1]? = some ["B"] ∧
      (chain 5 false).sites[0]? = some ⟨0, 0, 0⟩ ∧ (chain 5 false).sites[1]? = some ⟨1, 0, 0⟩ := by
  have h : ((start (chain 5 false) [["A"], ["B"], ["A"], ["B"], ["A"]]
        (do return [← process [0, 1] ["A", "B"] ["B", "A"] 1 [0] [] 0])).map (fun s =>
      (s.ms.procs.map (·.sites), s.ms.cfg.elements[0]?, s.ms.cfg.elements[1]?)))
      = .ok ([[2]], some ["A"], some ["B"]) := by decide +kernel
  cases hs : start (chain 5 false) [["A"], ["B"], ["A"], ["B"], ["A"]]
        (do return [← process [0, 1] ["A", "B"] ["B", "A"] 1 [0] [] 0]) with
  | error e => rw [hs] at h; cases h
  | ok s =>
    rw [hs] at h
    simp only [Except.map, Except.ok.injEq, Prod.mk.injEq] at h
    exact ⟨s, rfl, h.1, h.2.1, h.2.2, by decide +kernel, by decide +kernel⟩

end

/-! ## C12 -/

/-- **C12** Inserting implicit wildcards: the explicit entries stay, in order and unchanged; every
inserted entry accepts anything and has zero updates and no move; and every move of the process still
starts and ends at the same explicit entries. -/
theorem C12_insertion (cfg : Config K) (L : LatticeMap) (p p' : Proc K)
    (hp : Interactions.updateMatchListOf cfg L p = .ok p') :
    p.matchList.Sublist p'.matchList ∧
    (∀ e ∈ p'.matchList, e ∈ p.matchList ∨
      (e.matchTypes[0]? = some 1 ∧ (∀ u ∈ e.updateTypes, u = 0) ∧ e.hasMove = false ∧
        e.moveCoord = 0)) ∧
    p'.idMoves.length = p.idMoves.length ∧
    (∀ (i : Nat) (mv mv' : Nat × Nat), p.idMoves[i]? = some mv → p'.idMoves[i]? = some mv' →
      p.basisSites.length = 1 →
      (∃ e, p'.matchList[mv'.1]? = some e ∧ p.matchList[mv.1]? = some e) ∧
      (∃ e, p'.matchList[mv'.2]? = some e ∧ p.matchList[mv.2]? = some e)) ∧
    p' = { p with matchList := p'.matchList, idMoves := p'.idMoves } := by
  unfold Interactions.updateMatchListOf at hp
  split at hp
  · next b hb =>
    rw [bind_ok] at hp
    obtain ⟨idx, -, hp⟩ := hp
    rw [bind_ok] at hp
    obtain ⟨cml, hcml, hp⟩ := hp
    rw [bind_ok] at hp
    obtain ⟨r, hr, hp⟩ := hp
    dsimp only at hp
    rw [bind_ok] at hp
    obtain ⟨ids, hids, hp⟩ := hp
    cases hp
    have ha := alignLoop_aligned hr
    obtain ⟨m1, m2, m3, m4, m5, m6⟩ := alignLoop_mapping hr
    refine ⟨ha.sublist.1, ?_, mapMM_length hids, ?_, rfl⟩
    · intro e he
      rcases ha.sublist.2 e he with h | ⟨c, -, hc, rfl⟩
      · exact .inl h
      · refine .inr ⟨?_, ?_, rfl, rfl⟩
        · exact wildcardFor_wild hc
        · intro u hu
          simp [wildcardFor, Bucket.zeros] at hu
          exact hu.2
    · intro i mv mv' h1 h2 _
      obtain ⟨y, hy, hf⟩ := mapMM_getElem? hids h1
      rw [h2, Option.some.injEq] at hy
      subst hy
      rw [bind_ok] at hf
      obtain ⟨a, ha1, hf⟩ := hf
      rw [bind_ok] at hf
      obtain ⟨b', hb1, hf⟩ := hf
      cases hf
      have look : ∀ k a : Nat, rd (r.2.1.take r.2.2) k = .ok a →
          ∃ e, r.1[a]? = some e ∧ p.matchList[k]? = some e := by
        intro k a hk
        rw [rd_ok, List.getElem?_take] at hk
        split_ifs at hk with hlt
        obtain ⟨j, q, hj, hq, hq'⟩ := m5 k (Nat.zero_le _) hlt
        rw [hk, Option.some.injEq] at hj
        refine ⟨q, by rw [hj]; simpa using hq, by simpa using hq'⟩
      exact ⟨look _ _ ha1, look _ _ hb1⟩
  · next hb =>
    cases hp
    refine ⟨List.Sublist.refl _, fun e he => .inl he, rfl, ?_, rfl⟩
    intro i mv mv' _ _ hlen
    exfalso
    match h : p.basisSites, hlen with
    | [b], _ => exact hb b h

/-- **C12** An entry with zero updates (an implicit or explicit wildcard) is passed over when the
process is performed: nothing in the configuration and nothing in the list of affected sites
changes. -/
theorem C12_not_performed (st : Config K × List Nat) (e : PEntry K) (c : CEntry K)
    (h : ∀ u ∈ e.updateTypes, u = 0) : Config.performEntry st e c = .ok st := by
  have h0 : ∀ (l : List Int) (a : Int), (∀ u ∈ l, u = 0) → l.foldl (fun s v => s + |v|) a = a := by
    intro l
    induction l with
    | nil => intros; rfl
    | cons x l ih =>
      intro a hl
      rw [List.foldl_cons, hl x (by simp), abs_zero, add_zero]
      exact ih a (fun u hu => hl u (by simp [hu]))
  unfold Config.performEntry
  dsimp only
  have : Config.absSum e.updateTypes = 0 := h0 _ 0 h
  rw [if_neg (by omega)]
  rfl

/-- An explicit wildcard, written '*' both before and after, has zero updates. -/
example : (Sample.process [0, 1, 2] ["A", "*", "B"] ["B", "*", "A"] 1 [0] [] 0).map
    (fun p => p.matchList.map (fun e => (e.matchTypes, e.updateTypes)))
    = .ok [([0, 1, 0, 0], [0, -1, 1, 0]), ([1, 0, 0, 0], [0, 0, 0, 0]), ([0, 0, 1, 0], [0, 1, -1, 0])] := by
  decide +kernel

/-- Inserting wildcards into a process with a move: entries 0 and 1 become entries 0 and 2. -/
example : (Sample.start (Sample.chain 5 true) [["B"], ["A"], ["B"], ["A"], ["A"]]
      (do return [← Sample.process [0, 1] ["A", "B"] ["B", "A"] 1 [0] [(0, 1), (1, -1)] 0])).map
    (fun s => s.ms.procs.map (fun p => (p.idMoves, p.matchList.map (fun e => (e.coord.x, e.matchTypes)))))
    = .ok [([(0, 2), (2, 0)], [(0, [0, 1, 0, 0]), (-1, [1, 0, 0, 0]), (1, [0, 0, 1, 0])])] := by
  decide +kernel

/-! ## C13 -/

section
variable [IsStrictOrderedRing K] [FloorRing K]

/-- **C13**, one axis: a coordinate `c` leads from a position with fractional part `b` to a cell
`δ` cells away with fractional part `b'`. The number of cells computed from `c` covers `δ` provided
the target's fractional part is not smaller when `c` is not negative, and does not exceed the other
by more than 0.99999 when it is. (Both hold on lattices with one site per cell.) -/
theorem C13_axis_partial (c b b' : K) (δ : Int) (hb : 0 ≤ b ∧ b < 1) (hb' : 0 ≤ b' ∧ b' < 1)
    (hc : b + c = b' + δ) (hpos : 0 ≤ c → b ≤ b') (hneg : c < 0 → b' - b ≤ 99999 / 100000) :
    |δ| ≤ axisRange c := by
  unfold axisRange truncInt
  by_cases h0 : c < 0
  · rw [if_pos h0, if_pos (by linarith)]
    have h1 : -δ ≤ ⌊-1 * c + 99999 / 100000⌋ := by
      rw [Int.le_floor]
      push_cast
      linarith [hneg h0]
    have h2 : δ ≤ 0 := by
      have : (δ : K) < 1 := by linarith [hb.2, hb'.1]
      have : δ < 1 := by exact_mod_cast this
      omega
    rw [abs_of_nonpos h2]
    omega
  · push Not at h0
    rw [if_neg (not_lt.2 h0), if_pos h0]
    have h1 : δ ≤ ⌊c⌋ := by
      rw [Int.le_floor]
      linarith [hpos h0]
    have h2 : 0 ≤ δ := by
      have : (-1 : K) < δ := by linarith [hb.1, hb'.2]
      have : (-1 : Int) < δ := by exact_mod_cast this
      omega
    rw [abs_of_nonneg h2]
    omega

theorem growRange_ge (r : Nat) (c : Coord K) :
    r ≤ growRange r c ∧ axisRange c.x ≤ growRange r c ∧ axisRange c.y ≤ growRange r c ∧
      axisRange c.z ≤ growRange r c := by
  unfold growRange
  refine ⟨?_, ?_, ?_, ?_⟩ <;> simp

theorem foldl_growRange (l : List (PEntry K)) (r : Nat) :
    r ≤ l.foldl (fun r e => growRange r e.coord) r ∧
    ∀ e ∈ l, axisRange e.coord.x ≤ l.foldl (fun r e => growRange r e.coord) r ∧
      axisRange e.coord.y ≤ l.foldl (fun r e => growRange r e.coord) r ∧
      axisRange e.coord.z ≤ l.foldl (fun r e => growRange r e.coord) r := by
  induction l generalizing r with
  | nil => simp
  | cons a l ih =>
    rw [List.foldl_cons]
    obtain ⟨h1, h2⟩ := ih (growRange r a.coord)
    obtain ⟨g0, g1, g2, g3⟩ := growRange_ge r a.coord
    refine ⟨le_trans g0 h1, ?_⟩
    intro e he
    rcases List.mem_cons.1 he with rfl | he
    · exact ⟨le_trans g1 h1, le_trans g2 h1, le_trans g3 h1⟩
    · exact h2 e he

/-- **C13** The range of an ordinary process, and so the range used for all neighbourhoods, covers
each of its coordinates along each axis, under the condition of `C13_axis_partial` for that axis.
Missing: positive coordinates leading to a smaller fractional part, where the claim is false
(`C13_range_too_small`), and custom rate processes (`C13_custom_range_smaller`). -/
theorem C13_range_partial (dist : Coord K → K) (first second : Config K)
    (info : List (List (String × Int))) (rate : K) (basisSites : List Nat)
    (moves : List (Nat × Coord K)) (number : Nat) (p : Proc K)
    (h : mkProcess dist first second info rate basisSites moves number = .ok p)
    (procs : List (Proc K)) (hp : p ∈ procs) (i : Nat) (hi : i < first.elements.length) (c : Coord K)
    (hc : first.coords[i]? = some c) :
    axisRange c.x ≤ p.range ∧ axisRange c.y ≤ p.range ∧ axisRange c.z ≤ p.range ∧
      p.range ≤ Interactions.maxRange procs := by
  have hmax : ∀ (procs : List (Proc K)) (m : Nat),
      m ≤ procs.foldl (fun m p => max m p.range) m ∧
      ∀ p ∈ procs, p.range ≤ procs.foldl (fun m p => max m p.range) m := by
    intro procs
    induction procs with
    | nil => simp
    | cons a l ih =>
      intro m
      rw [List.foldl_cons]
      obtain ⟨h1, h2⟩ := ih (max m a.range)
      refine ⟨le_trans (le_max_left _ _) h1, ?_⟩
      intro q hq
      rcases List.mem_cons.1 hq with rfl | hq
      · exact le_trans (le_max_right _ _) h1
      · exact h2 q hq
  unfold mkProcess at h
  rw [bind_ok] at h
  obtain ⟨ups, -, h⟩ := h
  rw [bind_ok] at h
  obtain ⟨origin, -, h⟩ := h
  rw [bind_ok] at h
  obtain ⟨entries, hent, h⟩ := h
  dsimp only at h
  rw [bind_ok] at h
  obtain ⟨wm, -, h⟩ := h
  cases h
  have hr : (List.range first.elements.length)[i]? = some i := by simp [hi]
  obtain ⟨e, he, hf⟩ := mapMM_getElem? hent hr
  have hec : e.coord = c := by
    unfold entryOf at hf
    rw [rd_of_getElem? hc, ok_bind, bind_ok] at hf
    obtain ⟨t, -, hf⟩ := hf
    rw [bind_ok] at hf
    obtain ⟨u, -, hf⟩ := hf
    cases hf
    rfl
  have := (foldl_growRange entries 1).2 e (List.mem_of_getElem? he)
  rw [hec] at this
  exact ⟨this.1, this.2.1, this.2.2, (hmax procs 1).2 _ hp⟩
end

section
open Sample

/-- **C13** is false: with sites at 0 and 0.6 in each cell, a process at the second site with
coordinate 1.4 reaches the first site two cells away, but its range is one cell. Here site 1 (cell 0)
is A and site 4 (cell 2, first position) is B, and the process "A with B at 1.4" is not offered. -/
theorem C13_range_too_small :
    (process [0, 7 / 5] ["A", "B"] ["B", "A"] 1 [1] [] 0).map (·.range) = .ok 1 ∧
    (chain 5 true [0, 3 / 5]).sites[1]? = some ⟨3 / 5, 0, 0⟩ ∧
    (chain 5 true [0, 3 / 5]).sites[4]? = some ⟨3 / 5 + 7 / 5, 0, 0⟩ ∧
    (chain 5 true [0, 3 / 5]).map.neighbourIndices 1 1 = [8, 9, 0, 1, 2, 3] ∧
    (start (chain 5 true [0, 3 / 5])
      [["C"], ["A"], ["C"], ["C"], ["B"], ["C"], ["C"], ["C"], ["C"], ["C"]]
      (do return [← process [0, 7 / 5] ["A", "B"] ["B", "A"] 1 [1] [] 0])).map
      (fun s => s.ms.procs.map (·.sites)) = .ok [[]] := by
  refine ⟨?_, ?_, ?_, ?_, ?_⟩ <;> decide +kernel

/-- **C13** is false for custom rates: the same coordinates give range 2 as an ordinary process but
range 1 with custom rates, so that the process at site 4 (cell 2) with its partner at site 1 (cell 0)
is offered without a rate calculator and is not offered with one. -/
theorem C13_custom_range_smaller :
    (process [0, -7 / 5] ["A", "B"] ["B", "A"] 1 [0] [] 0).map (·.range) = .ok 2 ∧
    (customProcess [0, -7 / 5] ["A", "B"] ["B", "A"] 1 [0] 0 [] 0 false).map (·.range) = .ok 1 ∧
    (start (chain 6 true [0, 3 / 5])
      [["C"], ["B"], ["C"], ["C"], ["A"], ["C"], ["C"], ["C"], ["C"], ["C"], ["C"], ["C"]]
      (do return [← process [0, -7 / 5] ["A", "B"] ["B", "A"] 1 [0] [] 0])).map
      (fun s => s.ms.procs.map (·.sites)) = .ok [[4]] ∧
    (start (chain 6 true [0, 3 / 5])
      [["C"], ["B"], ["C"], ["C"], ["A"], ["C"], ["C"], ["C"], ["C"], ["C"], ["C"], ["C"]]
      (do return [← customProcess [0, -7 / 5] ["A", "B"] ["B", "A"] 1 [0] 0 [] 0 false])).map
      (fun s => s.ms.procs.map (·.sites)) = .ok [[]] := by
  refine ⟨?_, ?_, ?_, ?_⟩ <;> decide +kernel

/-- The conditions of `C13_axis_partial` hold along a simple chain. -/
example : |(-2 : Int)| ≤ axisRange (-2 : ℚ) :=
  C13_axis_partial (-2) 0 0 (-2) (by norm_num) (by norm_num) (by norm_num) (by norm_num) (by norm_num)

end

end KMC

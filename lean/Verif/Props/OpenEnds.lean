import Verif.Lemmas.OpenEnds
import Verif.Props.Matching

/-!
# C11 (open boundaries): what is offered there, exactly
-/

set_option linter.unusedSectionVars false

namespace KMC

variable {K : Type _} [Field K] [LinearOrder K] [IsStrictOrderedRing K]

/-- The position `a` comes before the position `b` in the order of match lists: it is nearer, or
equally far and smaller in x, then y, then z. -/
def Nearer (dist : Coord K → K) (a b : Coord K) : Prop :=
  dist a < dist b ∨ (dist a = dist b ∧ (a.x < b.x ∨ (a.x = b.x ∧ (a.y < b.y ∨ (a.y = b.y ∧ a.z < b.z)))))

/-- **C11** With implicit wildcards, on a lattice whose open axes are long enough for the central cell
to see everything and whose periodic axes are wide: let the list of a process consist of a part `body`
whose last coordinate `last` is not a wildcard, and of explicit wildcards `tail` after it (possibly
none). The process is accepted at a site of its basis exactly when

* each coordinate of `body` finds a site at that relative position with the required types,
* every position that the central site `c0` sees before `last` (nearer, or equally far and smaller in
  x, y, z) is also seen from this site, and
* for every wildcard at the end the central site sees its position, and this site sees at least as many
  sites as the central site sees up to that position.

The second condition is what is wrong near open ends: it has nothing to do with the process, whose
explicit coordinates may all be there. By the third a wildcard at the end is not always harmless
either, but does not ask for a site at its own position.

Missing: narrow periodic axes; distances or coordinates that coincide only up to the tolerance; a
process without a coordinate that is not a wildcard. -/
theorem C11_offered_tail_iff_partial (dist : Coord K → K) (P : PyLattice K) (hP : P.map.WF)
    (hb : ∀ b ∈ P.basis, (0 ≤ b.x ∧ b.x < 1) ∧ (0 ≤ b.y ∧ b.y < 1) ∧ (0 ≤ b.z ∧ b.z < 1))
    (hnd : P.basis.Nodup) (n : Nat) (hn : 0 < n) (r : Nat)
    (cfg0 cfg1 cfg : Config K)
    (hs0 : cfg0.Shape P.map.nSites) (hc0 : cfg0.coords = P.sites)
    (ht0 : ∀ t ∈ cfg0.types, t.length = n) (h1 : cfg0.initMatchLists dist P.map r = .ok cfg1)
    (hs : cfg.Shape P.map.nSites) (hc : cfg.coords = P.sites) (ht : ∀ t ∈ cfg.types, t.length = n)
    (p p' : Proc K) (b : Nat) (hpb : p.basisSites = [b])
    (hpn : ∀ e ∈ p.matchList, e.matchTypes.length = n)
    (hpd : ∀ e ∈ p.matchList, e.distance = dist e.coord)
    (entries : List (PEntry K)) (hpl : p.matchList = sortP entries)
    (hpnd : (entries.map (·.coord)).Nodup)
    (body tail : List (PEntry K)) (hsplit : p.matchList = body ++ tail)
    (last : PEntry K) (hlast : body.getLast? = some last) (hlw : last.matchTypes[0]? ≠ some 1)
    (htw : ∀ e ∈ tail, e.matchTypes[0]? = some 1)
    (hp : Interactions.updateMatchListOf cfg1 P.map p = .ok p')
    (c0 : Nat) (hcentre : (P.map.indicesFromCell (P.repA / 2) (P.repB / 2) (P.repC / 2))[b]? = some c0)
    (s : Nat) (hsn : s < P.map.nSites) (hsb : P.map.basisSite s = b)
    (hA : AxisWithin P.perA P.repA r (P.map.cellA s)) (hB : AxisWithin P.perB P.repB r (P.map.cellB s))
    (hC : AxisWithin P.perC P.repC r (P.map.cellC s))
    (hexact : ∀ e ∈ p.matchList, ∀ t ∈ P.map.neighbourIndices c0 r, ∀ cs ct, P.sites[c0]? = some cs →
      P.sites[t]? = some ct →
      ptSame e.distance e.coord (dist (P.map.wrap (ct - cs))) (P.map.wrap (ct - cs)) = true →
      e.coord = P.map.wrap (ct - cs))
    (hsep : Separated (fun d => (∃ e ∈ p.matchList, d = e.distance) ∨
      ∃ t ∈ P.map.neighbourIndices c0 r, ∃ cs ct, P.sites[c0]? = some cs ∧ P.sites[t]? = some ct ∧
        d = dist (P.map.wrap (ct - cs))))
    (env : List (CEntry K))
    (henv : cfg.configMatchList dist P.map s (P.map.neighbourIndices s r) = .ok env) :
    ∃ res, whateverMatch p'.matchList env = .ok res ∧ (res = true ↔
      (∀ e ∈ body, ∃ (t : Nat) (cs ct : Coord K) (present : Bucket),
        t ∈ P.map.neighbourIndices s r ∧ P.sites[s]? = some cs ∧ P.sites[t]? = some ct ∧
        P.map.wrap (ct - cs) = e.coord ∧ cfg.types[t]? = some present ∧ Accepts e present) ∧
      (∀ t0 ∈ P.map.neighbourIndices c0 r, ∀ cs0 ct0, P.sites[c0]? = some cs0 → P.sites[t0]? = some ct0 →
        Nearer dist (P.map.wrap (ct0 - cs0)) last.coord →
        ∃ t ∈ P.map.neighbourIndices s r, ∃ cs ct, P.sites[s]? = some cs ∧ P.sites[t]? = some ct ∧
          P.map.wrap (ct - cs) = P.map.wrap (ct0 - cs0)) ∧
      ∀ e ∈ tail,
        (∃ t ∈ P.map.neighbourIndices c0 r, ∃ cs ct, P.sites[c0]? = some cs ∧ P.sites[t]? = some ct ∧
          P.map.wrap (ct - cs) = e.coord) ∧
        ∃ upTo : List Nat, upTo.Nodup ∧ upTo.length ≤ (P.map.neighbourIndices s r).length ∧
          ∀ t, t ∈ upTo ↔ t ∈ P.map.neighbourIndices c0 r ∧ ∀ cs ct, P.sites[c0]? = some cs →
            P.sites[t]? = some ct → ¬ Nearer dist e.coord (P.map.wrap (ct - cs))) := by
  have hmem : ∀ s' < P.map.nSites, ∀ i ∈ P.map.neighbourIndices s' r, i < P.map.nSites :=
    fun s' hs' i hi => ((P.map.mem_neighbourIndices hP _ _ _ hs').1 hi).1
  have hpos : ∀ i < P.map.nSites, P.sites[i]? = some (P.pos i) := fun i hi => P.sites_eq_pos hP hi
  -- the environment of s
  obtain ⟨l, cen, hcen, hok, hf⟩ := Config.configMatchList_ok (dist := dist) (L := P.map) hs hsn
    (hmem s hsn)
  rw [hok] at henv
  cases henv
  obtain ⟨hlpts, hlent⟩ := env_points dist P hP cfg hc hsn hcen hf
  -- the central environment
  have vs := P.map.addr_valid hP s hsn
  have hbl : b < P.map.nBasis := by rw [← hsb]; exact vs.2.2.2
  obtain ⟨adr, hadr⟩ : ∃ a : Spec.Address, a = ⟨P.repA / 2, P.repB / 2, P.repC / 2, b⟩ := ⟨_, rfl⟩
  have vadr : adr.Valid P.map := by
    obtain ⟨-, hA, hB, hC⟩ := hP
    rw [hadr]
    exact ⟨Nat.div_lt_self hA (by omega), Nat.div_lt_self hB (by omega), Nat.div_lt_self hC (by omega), hbl⟩
  have hget := P.map.getElem?_indicesFromCell adr (by rw [hadr]; exact hbl)
  have hcn := P.map.siteNo_lt adr vadr
  have hadr' := P.map.addr_siteNo adr vadr
  have hc0e : P.map.siteNo adr = c0 := by
    rw [hadr] at hget ⊢
    rw [hget, Option.some.injEq] at hcentre
    exact hcentre
  rw [hc0e] at hcn hadr' hget
  rw [hadr] at hadr' hget
  have hcA : P.map.cellA c0 = P.repA / 2 := congrArg Spec.Address.a hadr'
  have hcB : P.map.cellB c0 = P.repB / 2 := congrArg Spec.Address.b hadr'
  have hcC : P.map.cellC c0 = P.repC / 2 := congrArg Spec.Address.c hadr'
  have hcL : P.map.basisSite c0 = b := congrArg Spec.Address.l hadr'
  obtain ⟨cfg1', h1', -, -, -, hlists⟩ := Config.initMatchLists_ok (dist := dist) hP hs0 rfl r
  rw [h1] at h1'
  cases h1'
  obtain ⟨l0, cen0, hcen0, hml0, -, hf0⟩ := hlists c0 hcn
  obtain ⟨hl0pts, hl0ent⟩ := env_points dist P hP cfg0 hc0 hcn hcen0 hf0
  have hrel := P.rel_within hP hb (r := r) hsn hcn (by rw [hsb, hcL]) hcA hcB hcC hA hB hC
  -- unfold the wildcard insertion
  unfold Interactions.updateMatchListOf at hp
  rw [hpb] at hp
  simp only at hp
  rw [show P.map.repA = P.repA from rfl, show P.map.repB = P.repB from rfl,
    show P.map.repC = P.repC from rfl] at hp
  rw [rd_of_getElem? hcentre, ok_bind, rd_of_getElem? hml0, ok_bind, bind_ok] at hp
  obtain ⟨al, hal, hp⟩ := hp
  rw [bind_ok] at hp
  obtain ⟨ids, -, hp⟩ := hp
  cases hp
  have hAl := alignLoop_aligned hal
  have hsc : SizedC n (sortC l) := by
    intro c hcm
    exact ht _ (List.mem_of_getElem? (hlent c ((perm_sortC l).mem_iff.1 hcm)).2.2)
  have hsc0 : SizedC n (sortC l0) := by
    intro c hcm
    exact ht0 _ (List.mem_of_getElem? (hl0ent c ((perm_sortC l0).mem_iff.1 hcm)).2.2)
  obtain ⟨res, hres, hiff⟩ := whateverMatch_ok hn al.1 (sortC l) (hAl.sized hpn hsc0) hsc
  refine ⟨res, hres, ?_⟩
  rw [hiff]
  -- points
  have pt_of : ∀ {s' : Nat} {l' : List (CEntry K)},
      l'.map CEntry.pt = ((P.map.neighbourIndices s' r).map (P.rel s')).map (fun c => (dist c, c)) →
      ∀ c ∈ sortC l', c.pt = (dist c.coord, c.coord) := by
    intro s' l' hl' c hcm
    have : c.pt ∈ l'.map CEntry.pt := List.mem_map_of_mem ((perm_sortC l').mem_iff.1 hcm)
    rw [hl', List.mem_map] at this
    obtain ⟨x, -, hx⟩ := this
    have h2 := congrArg Prod.snd hx
    simp only [CEntry.pt] at h2
    rw [← hx, h2]
  have mem_pts : ∀ {s' : Nat} {l' : List (CEntry K)},
      l'.map CEntry.pt = ((P.map.neighbourIndices s' r).map (P.rel s')).map (fun c => (dist c, c)) →
      ∀ q, q ∈ (sortC l').map CEntry.pt ↔ ∃ t ∈ P.map.neighbourIndices s' r,
        q = (dist (P.rel s' t), P.rel s' t) := by
    intro s' l' hl' q
    have hperm : ((sortC l').map CEntry.pt).Perm (l'.map CEntry.pt) := (perm_sortC l').map _
    rw [hperm.mem_iff, hl', List.map_map, List.mem_map]
    constructor
    · rintro ⟨t, ht, rfl⟩; exact ⟨t, ht, rfl⟩
    · rintro ⟨t, ht, rfl⟩; exact ⟨t, ht, rfl⟩
  -- strict order of the points
  have wide : ∀ {per : Bool} {rep c : Nat}, AxisWithin per rep r c → per = true → 2 * r + 1 ≤ rep := by
    intro per rep c h hper
    rcases h with ⟨-, h⟩ | ⟨h, -⟩
    · exact h
    · rw [hper] at h; cases h
  have strict : ∀ {s' : Nat} {l' : List (CEntry K)}, s' < P.map.nSites →
      l'.map CEntry.pt = ((P.map.neighbourIndices s' r).map (P.rel s')).map (fun c => (dist c, c)) →
      (∀ q ∈ l'.map CEntry.pt, (∃ e ∈ p.matchList, q.1 = e.distance) ∨
      ∃ t ∈ P.map.neighbourIndices c0 r, ∃ cs ct, P.sites[c0]? = some cs ∧ P.sites[t]? = some ct ∧
        q.1 = dist (P.map.wrap (ct - cs))) →
      ((sortC l').map CEntry.pt).Pairwise ptBefore := by
    intro s' l' hs' hl' hS
    have hw := sortPts_pairwise hsep (l'.map CEntry.pt) hS
    rw [← pts_sortC] at hw
    have hnodup : ((sortC l').map CEntry.pt).Nodup := by
      have hperm : ((sortC l').map CEntry.pt).Perm (l'.map CEntry.pt) := (perm_sortC l').map _
      rw [hperm.nodup_iff, hl']
      refine List.Nodup.map (fun a c h => congrArg Prod.snd h) ?_
      refine List.Nodup.map_on ?_ (P.map.nodup_neighbourIndices hP s' r (wide hA) (wide hB) (wide hC))
      intro a ha c hc' hac
      exact P.rel_inj hP hb hnd hs' (hmem s' hs' a ha) (hmem s' hs' c hc') hac
    refine List.Pairwise.imp_of_mem ?_ (hw.and hnodup)
    rintro a c - - ⟨h | h, hne⟩
    · exact h
    · exact absurd h hne
  have hS0 : ∀ q ∈ l0.map CEntry.pt, (∃ e ∈ p.matchList, q.1 = e.distance) ∨
      ∃ t ∈ P.map.neighbourIndices c0 r, ∃ cs ct, P.sites[c0]? = some cs ∧ P.sites[t]? = some ct ∧
        q.1 = dist (P.map.wrap (ct - cs)) := by
    intro q hq
    rw [hl0pts, List.map_map] at hq
    obtain ⟨t, ht, rfl⟩ := List.mem_map.1 hq
    exact .inr ⟨t, ht, _, _, hpos c0 hcn, hpos t (hmem c0 hcn t ht), rfl⟩
  have hS1 : ∀ q ∈ l.map CEntry.pt, (∃ e ∈ p.matchList, q.1 = e.distance) ∨
      ∃ t ∈ P.map.neighbourIndices c0 r, ∃ cs ct, P.sites[c0]? = some cs ∧ P.sites[t]? = some ct ∧
        q.1 = dist (P.map.wrap (ct - cs)) := by
    intro q hq
    rw [hlpts] at hq
    obtain ⟨x, hx, rfl⟩ := List.mem_map.1 hq
    have := hrel x hx
    apply hS0
    rw [hl0pts]
    exact List.mem_map_of_mem this
  have hpts0 := strict hcn hl0pts hS0
  have hpts := strict hsn hlpts hS1
  have hsub : ∀ q ∈ (sortC l).map CEntry.pt, q ∈ (sortC l0).map CEntry.pt := by
    intro q hq
    rw [mem_pts hlpts] at hq
    rw [mem_pts hl0pts]
    obtain ⟨t, ht, rfl⟩ := hq
    obtain ⟨t0, ht0, h'⟩ := List.mem_map.1 (hrel _ (List.mem_map_of_mem ht))
    exact ⟨t0, ht0, by rw [h']⟩
  -- explicit entries
  have hps : (p.matchList.map PEntry.pt).Pairwise ptBefore := by
    have hw := sortPts_pairwise hsep (entries.map PEntry.pt) (by
      intro q hq
      obtain ⟨e, he, rfl⟩ := List.mem_map.1 hq
      exact .inl ⟨e, by rw [hpl]; exact (perm_sortP entries).mem_iff.2 he, rfl⟩)
    rw [← pts_sortP, ← hpl] at hw
    have hnodup : (p.matchList.map PEntry.pt).Nodup := by
      have h1 : (p.matchList.map (·.coord)).Nodup := by
        rw [hpl]
        exact ((perm_sortP entries).map _).nodup_iff.2 hpnd
      have h2 : (p.matchList.map PEntry.pt).map Prod.snd = p.matchList.map (·.coord) := by
        rw [List.map_map]; rfl
      rw [← h2] at h1
      exact List.Nodup.of_map _ h1
    refine List.Pairwise.imp_of_mem ?_ (hw.and hnodup)
    rintro a c - - ⟨h | h, hne⟩
    · exact h
    · exact absurd h hne
  have hppt : ∀ e ∈ p.matchList, e.pt = (dist e.coord, e.coord) := by
    intro e he
    unfold PEntry.pt
    rw [hpd e he]
  have hex : ∀ e ∈ p.matchList, ∀ c ∈ sortC l0, samePoint e c = true → e.pt = c.pt := by
    intro e he c hcm hsp
    obtain ⟨hi, hcc, -⟩ := hl0ent c ((perm_sortC l0).mem_iff.1 hcm)
    have hcd := pt_of hl0pts c hcm
    have := hexact e he c.index hi _ _ (hpos c0 hcn) (hpos _ (hmem c0 hcn _ hi))
    rw [show P.map.wrap (P.pos c.index - P.pos c0) = c.coord from hcc.symm] at this
    rw [samePoint_eq, hcd] at hsp
    rw [hppt e he, hcd, this hsp]
  have hcompat : Compat p.matchList ((sortC l0).map CEntry.pt) := by
    apply compat_of_sorted hps (hpts0.imp fun h => .inl h)
    intro e he c hcm hsp
    obtain ⟨x, hx, rfl⟩ := List.mem_map.1 hcm
    exact hex e he x hx hsp
  have hllast : last ∈ p.matchList := by
    rw [hsplit]; exact List.mem_append_left _ (List.mem_of_getLast? hlast)
  have hbm : ∀ e ∈ body, e ∈ p.matchList := fun e he => by rw [hsplit]; exact List.mem_append_left _ he
  have htm : ∀ e ∈ tail, e ∈ p.matchList := fun e he => by rw [hsplit]; exact List.mem_append_right _ he
  have hAl' := hAl
  rw [hsplit] at hAl'
  classical
  rw [aligned_match_within_tail hAl' hlast hlw htw hpts0 hpts hsub (by rw [← hsplit]; exact hps)
    (by rw [← hsplit]; exact hex) (by rw [← hsplit]; exact hcompat)]
  refine and_congr ?_ (and_congr ?_ ?_)
  · constructor
    · intro hall e heb
      have he := hbm e heb
      obtain ⟨c, hcm, hsp, hfit⟩ := hall e heb
      obtain ⟨hi, hcc, htc⟩ := hlent c ((perm_sortC l).mem_iff.1 hcm)
      refine ⟨c.index, P.pos s, P.pos c.index, c.matchTypes, hi, hpos s hsn, hpos _ (hmem s hsn _ hi),
        ?_, htc, ?_⟩
      · obtain ⟨d, hd, hdc⟩ := List.mem_map.1 (hsub c.pt (List.mem_map_of_mem hcm))
        have h1 : e.pt = c.pt := by
          rw [← hdc]
          refine hex e he d hd ?_
          rw [samePoint_eq, hdc, ← samePoint_eq]
          exact hsp
        have h2 : e.coord = c.coord := congrArg Prod.snd h1
        rw [h2, hcc]
        rfl
      · rcases hfit with h | ⟨-, h⟩
        · exact .inl h
        · exact .inr h
    · intro hall e heb
      have he := hbm e heb
      obtain ⟨t, cs, ct, present, htn, hcs, hct, hw, hpres, hacc⟩ := hall e heb
      rw [hpos s hsn, Option.some.injEq] at hcs
      rw [hpos t (hmem s hsn _ htn), Option.some.injEq] at hct
      subst hcs hct
      have hq : (dist (P.rel s t), P.rel s t) ∈ (sortC l).map CEntry.pt := (mem_pts hlpts _).2 ⟨t, htn, rfl⟩
      obtain ⟨c, hcm, hcpt⟩ := List.mem_map.1 hq
      obtain ⟨hi, hcc, htc⟩ := hlent c ((perm_sortC l).mem_iff.1 hcm)
      have hcd : c.distance = dist (P.rel s t) := congrArg Prod.fst hcpt
      have hccoord : c.coord = P.rel s t := congrArg Prod.snd hcpt
      have hidx : c.index = t := P.rel_inj hP hb hnd hsn (hmem s hsn _ hi) (hmem s hsn _ htn) (by
        rw [← hcc, hccoord])
      have hrel' : P.rel s t = e.coord := hw
      have hsp : samePoint e c = true := by
        unfold samePoint ptSame
        rw [hcd, hccoord, hrel', hpd e he]
        have : (0 : K) ≤ epsi := epsi_pos.le
        simp [not_lt.2 this]
      rw [hidx, hpres, Option.some.injEq] at htc
      refine ⟨c, hcm, hsp, ?_⟩
      rcases hacc with h | h
      · exact .inl h
      · exact .inr ⟨hsp, by rw [← htc]; exact h⟩
  · have hbef : ∀ x : Coord K, ptBefore (dist x, x) last.pt ↔ Nearer dist x last.coord := by
      intro x
      rw [hppt last hllast]
      rfl
    constructor
    · intro hall t0 ht0 cs0 ct0 hcs0 hct0 hnear
      rw [hpos c0 hcn, Option.some.injEq] at hcs0
      rw [hpos t0 (hmem c0 hcn _ ht0), Option.some.injEq] at hct0
      subst hcs0 hct0
      have := hall _ ((mem_pts hl0pts _).2 ⟨t0, ht0, rfl⟩) ((hbef _).2 hnear)
      rw [mem_pts hlpts] at this
      obtain ⟨t, htn, e⟩ := this
      exact ⟨t, htn, _, _, hpos s hsn, hpos t (hmem s hsn _ htn), (congrArg Prod.snd e).symm⟩
    · intro hall q hq hbq
      rw [mem_pts hl0pts] at hq
      obtain ⟨t0, ht0, rfl⟩ := hq
      obtain ⟨t, htn, cs, ct, hcs, hct, e⟩ := hall t0 ht0 _ _ (hpos c0 hcn) (hpos _ (hmem c0 hcn _ ht0))
        ((hbef _).1 hbq)
      rw [hpos s hsn, Option.some.injEq] at hcs
      rw [hpos t (hmem s hsn _ htn), Option.some.injEq] at hct
      subst hcs hct
      rw [mem_pts hlpts]
      refine ⟨t, htn, ?_⟩
      have e' : P.rel s t = P.rel c0 t0 := e
      rw [e']
  · have hlen : (sortC l).length = (P.map.neighbourIndices s r).length := by
      have h1 := congrArg List.length hlpts
      simp only [List.length_map] at h1
      rw [(perm_sortC l).length_eq, h1]
    have hcnt : ∀ e ∈ p.matchList,
        (((sortC l0).map CEntry.pt).filter fun q => decide (¬ ptBefore e.pt q)).length =
        ((P.map.neighbourIndices c0 r).filter fun t => decide (¬ Nearer dist e.coord (P.rel c0 t))).length := by
      intro e he
      have hperm : ((sortC l0).map CEntry.pt).Perm (l0.map CEntry.pt) := (perm_sortC l0).map _
      rw [(hperm.filter _).length_eq, hl0pts, List.map_map, List.filter_map, List.length_map]
      refine congrArg List.length (List.filter_congr fun t _ => ?_)
      rw [hppt e he]
      rfl
    have hnn := P.map.nodup_neighbourIndices hP c0 r (wide hA) (wide hB) (wide hC)
    refine forall₂_congr fun e hem => and_congr ?_ ?_
    · have he := htm e hem
      constructor
      · rintro ⟨c, hcm, hsp⟩
        obtain ⟨hi, hcc, -⟩ := hl0ent c ((perm_sortC l0).mem_iff.1 hcm)
        refine ⟨c.index, hi, _, _, hpos c0 hcn, hpos _ (hmem c0 hcn _ hi), ?_⟩
        have h2 : e.coord = c.coord := congrArg Prod.snd (hex e he c hcm hsp)
        rw [h2, hcc]
        rfl
      · rintro ⟨t, htn, cs, ct, hcs, hct, hw⟩
        rw [hpos c0 hcn, Option.some.injEq] at hcs
        rw [hpos t (hmem c0 hcn _ htn), Option.some.injEq] at hct
        subst hcs hct
        obtain ⟨c, hcm, hcpt⟩ := List.mem_map.1 ((mem_pts hl0pts _).2 ⟨t, htn, rfl⟩)
        refine ⟨c, hcm, ?_⟩
        have hcd : c.distance = dist (P.rel c0 t) := congrArg Prod.fst hcpt
        have hccoord : c.coord = P.rel c0 t := congrArg Prod.snd hcpt
        have hrel' : P.rel c0 t = e.coord := hw
        unfold samePoint ptSame
        rw [hcd, hccoord, hrel', hpd e he]
        have : (0 : K) ≤ epsi := epsi_pos.le
        simp [not_lt.2 this]
    · rw [hcnt e (htm e hem), hlen]
      have hiff' : ∀ t, t ∈ ((P.map.neighbourIndices c0 r).filter
            fun t => decide (¬ Nearer dist e.coord (P.rel c0 t))) ↔
          t ∈ P.map.neighbourIndices c0 r ∧ ∀ cs ct, P.sites[c0]? = some cs →
            P.sites[t]? = some ct → ¬ Nearer dist e.coord (P.map.wrap (ct - cs)) := by
        intro t
        rw [List.mem_filter, decide_eq_true_eq]
        refine and_congr_right fun htn => ?_
        rw [hpos c0 hcn, hpos t (hmem c0 hcn _ htn)]
        constructor
        · rintro h cs ct hcs hct
          cases hcs
          cases hct
          exact h
        · intro h
          exact h _ _ rfl rfl
      constructor
      · intro h
        exact ⟨_, hnn.filter _, h, hiff'⟩
      · rintro ⟨upTo, hu, hul, hum⟩
        refine le_trans (le_of_eq ?_) hul
        refine List.Perm.length_eq ((List.perm_ext_iff_of_nodup (hnn.filter _) hu).2 fun t => ?_)
        rw [hiff', hum]

/-- **C11** With implicit wildcards, on a lattice whose open axes are long enough for the central cell
to see everything and whose periodic axes are wide, a process is accepted at a site of its basis
exactly when

* each explicit coordinate finds a site at that relative position with the required types, and
* every position that the central site `c0` sees before the last explicit coordinate (nearer, or
  equally far and smaller in x, y, z) is also seen from this site.

The second condition is what is wrong near open ends: it has nothing to do with the process, whose
explicit coordinates may all be there.

Missing: a process that ends with an explicit wildcard (C11_offered_tail_iff_partial); narrow periodic axes; distances or coordinates
that coincide only up to the tolerance. -/
theorem C11_offered_iff_partial (dist : Coord K → K) (P : PyLattice K) (hP : P.map.WF)
    (hb : ∀ b ∈ P.basis, (0 ≤ b.x ∧ b.x < 1) ∧ (0 ≤ b.y ∧ b.y < 1) ∧ (0 ≤ b.z ∧ b.z < 1))
    (hnd : P.basis.Nodup) (n : Nat) (hn : 0 < n) (r : Nat)
    (cfg0 cfg1 cfg : Config K)
    (hs0 : cfg0.Shape P.map.nSites) (hc0 : cfg0.coords = P.sites)
    (ht0 : ∀ t ∈ cfg0.types, t.length = n) (h1 : cfg0.initMatchLists dist P.map r = .ok cfg1)
    (hs : cfg.Shape P.map.nSites) (hc : cfg.coords = P.sites) (ht : ∀ t ∈ cfg.types, t.length = n)
    (p p' : Proc K) (b : Nat) (hpb : p.basisSites = [b])
    (hpn : ∀ e ∈ p.matchList, e.matchTypes.length = n)
    (hpd : ∀ e ∈ p.matchList, e.distance = dist e.coord)
    (entries : List (PEntry K)) (hpl : p.matchList = sortP entries)
    (hpnd : (entries.map (·.coord)).Nodup)
    (last : PEntry K) (hlast : p.matchList.getLast? = some last) (hlw : last.matchTypes[0]? ≠ some 1)
    (hp : Interactions.updateMatchListOf cfg1 P.map p = .ok p')
    (c0 : Nat) (hcentre : (P.map.indicesFromCell (P.repA / 2) (P.repB / 2) (P.repC / 2))[b]? = some c0)
    (s : Nat) (hsn : s < P.map.nSites) (hsb : P.map.basisSite s = b)
    (hA : AxisWithin P.perA P.repA r (P.map.cellA s)) (hB : AxisWithin P.perB P.repB r (P.map.cellB s))
    (hC : AxisWithin P.perC P.repC r (P.map.cellC s))
    (hexact : ∀ e ∈ p.matchList, ∀ t ∈ P.map.neighbourIndices c0 r, ∀ cs ct, P.sites[c0]? = some cs →
      P.sites[t]? = some ct →
      ptSame e.distance e.coord (dist (P.map.wrap (ct - cs))) (P.map.wrap (ct - cs)) = true →
      e.coord = P.map.wrap (ct - cs))
    (hsep : Separated (fun d => (∃ e ∈ p.matchList, d = e.distance) ∨
      ∃ t ∈ P.map.neighbourIndices c0 r, ∃ cs ct, P.sites[c0]? = some cs ∧ P.sites[t]? = some ct ∧
        d = dist (P.map.wrap (ct - cs))))
    (env : List (CEntry K))
    (henv : cfg.configMatchList dist P.map s (P.map.neighbourIndices s r) = .ok env) :
    ∃ res, whateverMatch p'.matchList env = .ok res ∧ (res = true ↔
      (∀ e ∈ p.matchList, ∃ (t : Nat) (cs ct : Coord K) (present : Bucket),
        t ∈ P.map.neighbourIndices s r ∧ P.sites[s]? = some cs ∧ P.sites[t]? = some ct ∧
        P.map.wrap (ct - cs) = e.coord ∧ cfg.types[t]? = some present ∧ Accepts e present) ∧
      ∀ t0 ∈ P.map.neighbourIndices c0 r, ∀ cs0 ct0, P.sites[c0]? = some cs0 → P.sites[t0]? = some ct0 →
        Nearer dist (P.map.wrap (ct0 - cs0)) last.coord →
        ∃ t ∈ P.map.neighbourIndices s r, ∃ cs ct, P.sites[s]? = some cs ∧ P.sites[t]? = some ct ∧
          P.map.wrap (ct - cs) = P.map.wrap (ct0 - cs0)) := by
  obtain ⟨res, h1, h2⟩ := C11_offered_tail_iff_partial dist P hP hb hnd n hn r cfg0 cfg1 cfg hs0 hc0 ht0 h1
    hs hc ht p p' b hpb hpn hpd entries hpl hpnd p.matchList [] (by simp) last hlast hlw (by simp) hp c0
    hcentre s hsn hsb hA hB hC hexact hsep env henv
  refine ⟨res, h1, h2.trans ?_⟩
  simp

section
open Sample

/-- **C11** A process and its mirror image are treated differently: on the open chain A, B, A, B, A the
process "A with B to the left" is offered at both places where it fits, also at the right end, while
"A with B to the right" is not offered at the left end. (The site to the left of the centre comes
before the one to the right.) -/
theorem C11_mirror :
    ((start (chain 5 false) [["A"], ["B"], ["A"], ["B"], ["A"]]
        (do return [← process [0, -1] ["A", "B"] ["B", "A"] 1 [0] [] 0,
                    ← process [0, 1] ["A", "B"] ["B", "A"] 1 [0] [] 1])).map
      (fun s => s.ms.procs.map (·.sites))) = .ok [[2, 4], [2]] := by decide +kernel

/-- **C11** An explicit wildcard at the end changes where a process is offered: on an open chain of A the
process "A" is offered at all five sites, and so is "A with anything to the left", also at the left end
where there is nothing, while "A with anything to the right" is offered at neither end, though at the left
end there is something to the right. -/
theorem C11_trailing_wildcard :
    ((start (chain 5 false) [["A"], ["A"], ["A"], ["A"], ["A"]]
        (do return [← process [0] ["A"] ["B"] 1 [0] [] 0,
                    ← process [0, -1] ["A", "*"] ["B", "*"] 1 [0] [] 1,
                    ← process [0, 1] ["A", "*"] ["B", "*"] 1 [0] [] 2])).map
      (fun s => s.ms.procs.map (·.sites))) = .ok [[0, 1, 2, 3, 4], [0, 1, 2, 3, 4], [1, 2, 3]] := by
  decide +kernel

/-- The conditions of `C11_offered_iff_partial` on the lattice and on a process with the places 0 and 1
hold for every site of this chain. -/
example :
    (∀ s < 5, AxisWithin false 5 1 ((chain 5 false).map.cellA s) ∧
      AxisWithin false 1 1 ((chain 5 false).map.cellB s) ∧
      AxisWithin false 1 1 ((chain 5 false).map.cellC s)) ∧
    ((chain 5 false).map.indicesFromCell (5 / 2) (1 / 2) (1 / 2))[0]? = some 2 ∧
    (∀ c ∈ ([⟨0, 0, 0⟩, ⟨1, 0, 0⟩] : List (Coord ℚ)), ∀ t ∈ (chain 5 false).map.neighbourIndices 2 1,
      ∀ cs ct, (chain 5 false).sites[2]? = some cs → (chain 5 false).sites[t]? = some ct →
      ptSame (dist1 c) c (dist1 ((chain 5 false).map.wrap (ct - cs)))
        ((chain 5 false).map.wrap (ct - cs)) = true → c = (chain 5 false).map.wrap (ct - cs)) := by
  refine ⟨?_, by decide +kernel, ?_⟩
  · intro s hs
    refine ⟨.inr ⟨rfl, .inr (by omega)⟩, .inr ⟨rfl, .inl ?_⟩, .inr ⟨rfl, .inl ?_⟩⟩
    · have := (chain 5 false).map.cellB_lt (by decide) s
      have h1 : (chain 5 false).map.repB = 1 := rfl
      omega
    · have := (chain 5 false).map.cellC_lt (by decide) s
      have h1 : (chain 5 false).map.repC = 1 := rfl
      omega
  · have hN : (chain 5 false).map.neighbourIndices 2 1 = [1, 2, 3] := by decide +kernel
    have hS : (chain 5 false).sites = [⟨0, 0, 0⟩, ⟨1, 0, 0⟩, ⟨2, 0, 0⟩, ⟨3, 0, 0⟩, ⟨4, 0, 0⟩] := by
      decide +kernel
    rw [hN, hS]
    intro c hc t ht cs ct hcs hct
    simp only [List.mem_cons, List.not_mem_nil, or_false] at hc ht
    cases hcs
    rcases ht with rfl | rfl | rfl <;> cases hct <;> rcases hc with rfl | rfl <;> decide +kernel

end

end KMC

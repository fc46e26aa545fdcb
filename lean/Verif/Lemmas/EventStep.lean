import Verif.Lemmas.Call
import Verif.Model.LatticeModel

/-!
# One event in a run
-/

set_option linter.unusedSectionVars false

namespace KMC

variable {K : Type _} [Field K] [LinearOrder K]

/-- Active entries are matched with different sites. -/
theorem active_index_inj {nT : Nat} {p : Proc K} (hp : ProcOk nT p) {sml l1 l2 : List (CEntry K)}
    (hl : sml = l1 ++ l2) (hf : List.Forall₂ Fits p.matchList l1)
    (hsame : ∀ e ∈ sml, ∀ e' ∈ sml, e.index = e'.index → e.coord = e'.coord ∧ e.distance = e'.distance)
    {a b : Nat} {e f : PEntry K} {c d : CEntry K} (ha : p.matchList[a]? = some e)
    (hb : p.matchList[b]? = some f) (hc : sml[a]? = some c) (hd : sml[b]? = some d)
    (he : e.Active) (hf' : f.Active) (hi : c.index = d.index) : a = b := by
  have key : ∀ (a b : Nat) (e f : PEntry K) (c d : CEntry K), p.matchList[a]? = some e →
      p.matchList[b]? = some f → sml[a]? = some c → sml[b]? = some d →
      e.Active → f.Active → c.index = d.index → ¬ a < b := by
    intro a b e f c d ha hb hc hd he hf' hi hab
    obtain ⟨ha1, ha2⟩ := List.getElem?_eq_some_iff.1 ha
    obtain ⟨hb1, hb2⟩ := List.getElem?_eq_some_iff.1 hb
    have hlen := hf.length_eq
    have hfit : ∀ (k : Nat) (x : PEntry K) (y : CEntry K), p.matchList[k]? = some x → sml[k]? = some y →
        x.Active → samePoint x y = true := by
      intro k x y hx hy hxa
      obtain ⟨hk1, hk2⟩ := List.getElem?_eq_some_iff.1 hx
      rw [hl, List.getElem?_append_left (by omega)] at hy
      obtain ⟨hk3, hk4⟩ := List.getElem?_eq_some_iff.1 hy
      have := (List.forall₂_iff_get.1 hf).2 k hk1 hk3
      simp only [List.get_eq_getElem, hk2, hk4] at this
      rcases this with hw | hw
      · exact absurd hw (hp.notWild x (List.mem_of_getElem? hx) hxa)
      · exact hw.1
    have h1 := hfit a e c ha hc he
    have h2 := hfit b f d hb hd hf'
    obtain ⟨h3, h4⟩ := hsame c (List.mem_of_getElem? hc) d (List.mem_of_getElem? hd) hi
    have h5 := List.pairwise_iff_getElem.1 hp.points a b ha1 hb1 hab
    rw [ha2, hb2] at h5
    refine h5 he hf' c ⟨h1, ?_⟩
    unfold samePoint at h2 ⊢
    rw [h3, h4]
    exact h2
  have h1 := key a b e f c d ha hb hc hd he hf' hi
  have h2 := key b a f e d c hb ha hd hc hf' he hi.symm
  omega

theorem acting_nodup {nT : Nat} {p : Proc K} (hp : ProcOk nT p) {sml l1 l2 : List (CEntry K)}
    (hl : sml = l1 ++ l2) (hf : List.Forall₂ Fits p.matchList l1)
    (hsame : ∀ e ∈ sml, ∀ e' ∈ sml, e.index = e'.index → e.coord = e'.coord ∧ e.distance = e'.distance) :
    ((acting p.matchList sml).map (·.2.index)).Nodup := by
  unfold acting List.Nodup
  rw [List.pairwise_map]
  have h1 : (p.matchList.zip sml).Pairwise (fun x y => x.1.Acts → y.1.Acts → x.2.index ≠ y.2.index) := by
    rw [List.pairwise_iff_getElem]
    intro i j hi hj hij hx hy heq
    simp only [List.length_zip] at hi hj
    simp only [List.getElem_zip] at hx hy heq
    have := active_index_inj hp hl hf hsame (List.getElem?_eq_getElem (by omega))
      (List.getElem?_eq_getElem (by omega)) (List.getElem?_eq_getElem (by omega))
      (List.getElem?_eq_getElem (by omega)) (Or.inl hx) (Or.inl hy) heq
    omega
  refine (h1.filter _).imp_of_mem ?_
  intro a b ha hb hab
  exact hab (by simpa using (List.mem_filter.1 ha).2) (by simpa using (List.mem_filter.1 hb).2)

/-- An acting pair comes from one position of the lists. -/
theorem acting_pos {pml : List (PEntry K)} {sml : List (CEntry K)} {e : PEntry K × CEntry K}
    (h : e ∈ acting pml sml) : ∃ k : Nat, pml[k]? = some e.1 ∧ sml[k]? = some e.2 ∧ e.1.Acts := by
  unfold acting at h
  rw [List.mem_filter] at h
  obtain ⟨k, hk⟩ := List.mem_iff_getElem?.1 h.1
  rw [List.getElem?_zip_eq_some] at hk
  exact ⟨k, hk.1, hk.2, by simpa using h.2⟩

theorem length_acting_le (pml : List (PEntry K)) (sml : List (CEntry K)) :
    (acting pml sml).length ≤ (pml.filter (fun e => decide e.Acts)).length := by
  induction pml generalizing sml with
  | nil => simp [acting]
  | cons p ps ih =>
    cases sml with
    | nil => simp [acting]
    | cons c cs =>
      have := ih cs
      unfold acting at this ⊢
      rw [List.zip_cons_cons, List.filter_cons, List.filter_cons]
      split <;> simp_all

/-- An acting entry fits its site. -/
theorem acting_fits {pml : List (PEntry K)} {sml l1 l2 : List (CEntry K)} (hl : sml = l1 ++ l2)
    (hf : List.Forall₂ Fits pml l1) {e : PEntry K × CEntry K} (h : e ∈ acting pml sml) : Fits e.1 e.2 := by
  obtain ⟨k, h1, h2, -⟩ := acting_pos h
  obtain ⟨hk1, hk2⟩ := List.getElem?_eq_some_iff.1 h1
  have hlen := hf.length_eq
  rw [hl, List.getElem?_append_left (by omega)] at h2
  obtain ⟨hk3, hk4⟩ := List.getElem?_eq_some_iff.1 h2
  have := (List.forall₂_iff_get.1 hf).2 k hk1 hk3
  simpa only [List.get_eq_getElem, hk2, hk4] using this

namespace World

variable {W : World K}

/-- The event of process `j` (the record `q`) at `site`. -/
structure Event (W : World K) (s : MState K) (j site : Nat) (q : Proc K) (sk : List (CEntry K))
    (cfg1 cfg2 : Config K) (aff : List Nat) : Prop where
  proc : s.procs[j]? = some q
  inside : site < W.n
  skel : W.skel[site]? = some sk
  list : s.cfg.matchLists[site]? = some (seen s.cfg.types sk)
  basis : W.env.L.basisSite site ∈ q.basisSites
  fits : ∃ l1 l2, seen s.cfg.types sk = l1 ++ l2 ∧ List.Forall₂ Fits q.matchList l1
  ready : Config.EventOk W.n W.nT s.cfg q.matchList (seen s.cfg.types sk) q.idMoves q.affected
  done : Config.Done { s.cfg with latestProcess := q.number, latestSite := site, nMoved := 0 } q.affected
    (acting q.matchList (seen s.cfg.types sk)) cfg1 aff
  moved : Config.Moved cfg1 (Config.idUpdates s.cfg.atomId (seen s.cfg.types sk) q.idMoves) cfg2
  result : s.cfg.perform q.number q.matchList q.idMoves q.affected site = .ok (cfg2, aff)
  procOk : ProcOk W.nT q.still
  nonneg : ∀ e ∈ acting q.matchList (seen s.cfg.types sk), ∀ t, s.cfg.types[e.2.index]? = some t →
    ∀ v ∈ List.zipWith (· + ·) t e.1.updateTypes, 0 ≤ v

/-- Where an acting entry is, the counts are at least what it asks for. -/
theorem acting_counts {cfg : Config K} {q : Proc K} (hq : ProcOk W.nT q)
    {sk l1 l2 : List (CEntry K)} (hl : seen cfg.types sk = l1 ++ l2) (hf : List.Forall₂ Fits q.matchList l1)
    {e : PEntry K × CEntry K} (he : e ∈ acting q.matchList (seen cfg.types sk)) {t : Bucket}
    (ht : cfg.types[e.2.index]? = some t) :
    ∀ (i : Nat) (x y : Int), e.1.matchTypes[i]? = some x → t[i]? = some y → x ≤ y := by
  obtain ⟨h1, h2, h3⟩ := Config.mem_acting he
  rcases acting_fits hl hf he with hw | hw
  · exact absurd hw (hq.notWild _ h1 (Or.inl h3))
  · have h4 : e.2.matchTypes = t := by
      obtain ⟨e', _, h5⟩ := List.mem_map.1 h2
      rw [← h5] at ht ⊢
      simp only [CEntry.look] at ht ⊢
      rw [List.getD_eq_getElem?_getD, ht]
      rfl
    rw [← h4]
    exact hw.2

theorem event_ok (h : W.Ok) {s : MState K} {A : Matcher.Content K} (hI : W.InvA s A) {j site : Nat}
    {q : Proc K} (hq : s.procs[j]? = some q) (hs : site ∈ q.sites) :
    ∃ sk cfg1 cfg2 aff, W.Event s j site q sk cfg1 cfg2 aff := by
  have hA := ((hI.book.rep j q hq).listed site).1 hs
  have hin : site < W.n ∧ j < W.procs.length := by
    by_contra hc
    rw [hI.off site j hc] at hA
    cases hA
  have hsk : W.skel[site]? = some (W.skel[site]'(by rw [h.len]; exact hin.1)) := List.getElem?_eq_getElem _
  obtain ⟨sk, hsk⟩ : ∃ sk, W.skel[site]? = some sk := ⟨_, hsk⟩
  have hpw := hI.proc hq
  have hpo := h.proc _ (List.mem_of_getElem? hpw)
  obtain ⟨hb, hm⟩ := ((hI.right site sk hsk).avail j _ hpw).1 hA
  have hlist := (hI.right site sk hsk).fresh (by
    intro h0
    have := Matcher.mem_processesFor.2 ⟨_, hpw, hb⟩
    rw [h0] at this
    simp at this)
  obtain ⟨r, hr1, hr2⟩ := whateverMatch_ok h.typed q.matchList _ hpo.sized (h.sized hI.good hsk)
  have hm' : whateverMatch q.matchList (seen s.cfg.types sk) = .ok true := hm
  rw [hm'] at hr1
  cases hr1
  obtain ⟨l1, l2, hl, hf⟩ := hr2.1 rfl
  have hlen : q.matchList.length ≤ (seen s.cfg.types sk).length := by
    rw [hl, List.length_append, ← hf.length_eq]; omega
  have hsame : ∀ e ∈ seen s.cfg.types sk, ∀ e' ∈ seen s.cfg.types sk, e.index = e'.index →
      e.coord = e'.coord ∧ e.distance = e'.distance := by
    intro e he e' he' hi
    obtain ⟨d, hd, rfl⟩ := List.mem_map.1 he
    obtain ⟨d', hd', rfl⟩ := List.mem_map.1 he'
    exact h.same sk (List.mem_of_getElem? hsk) d hd d' hd' hi
  have hidx : ∀ c ∈ seen s.cfg.types sk, c.index < W.n := by
    intro c hc
    obtain ⟨d, hd, rfl⟩ := List.mem_map.1 hc
    exact h.index hsk (e := d) hd
  have haff : (acting q.matchList (seen s.cfg.types sk)).length ≤ q.affected.length := by
    refine le_trans (length_acting_le _ _) ?_
    have := hpo.affected
    simp only [Proc.still, List.length_replicate] at this
    exact this
  have hroom : (acting q.matchList (seen s.cfg.types sk)).length ≤ W.room := by
    refine le_trans ?_ (h.room sk (List.mem_of_getElem? hsk))
    unfold acting
    refine le_trans (List.length_filter_le _ _) ?_
    rw [List.length_zip, length_seen]
    omega
  have hev : Config.EventOk W.n W.nT s.cfg q.matchList (seen s.cfg.types sk) q.idMoves q.affected := by
    refine ⟨hlen, hidx, fun p hp _ => hpo.updates p hp, ?_, ?_, haff, by rw [hI.roomI]; exact hroom,
      by rw [hI.roomV]; exact hroom, ?_⟩
    · exact acting_nodup (p := q.still) hpo hl hf hsame
    · intro e he t ht
      obtain ⟨h1, h2, h3⟩ := Config.mem_acting he
      obtain ⟨i, x, u, hx, hu, hpos⟩ := hpo.some e.1 h1 h3
      have htl : t.length = W.nT := hI.good.bucket t (List.mem_of_getElem? ht)
      have hil : i < t.length := by
        have := (List.getElem?_eq_some_iff.1 hu).1
        rw [hpo.updates _ h1] at this
        omega
      have hxy := acting_counts (q := q.still) hpo hl hf he ht i x _ hx (List.getElem?_eq_getElem hil)
      refine ⟨t[i] + u, ?_, by omega⟩
      rw [List.mem_iff_getElem?]
      refine ⟨i, ?_⟩
      rw [List.getElem?_zipWith, List.getElem?_eq_getElem hil, hu]
    · intro mv hmv
      obtain ⟨e, f, he, hf', -, -⟩ := hpo.moves mv hmv
      have h1 := (List.getElem?_eq_some_iff.1 he).1
      have h2 := (List.getElem?_eq_some_iff.1 hf').1
      have h3 : q.still.matchList.length = q.matchList.length := rfl
      omega
  obtain ⟨cfg1, cfg2, aff, h1, h2, h3⟩ := Config.perform_ok hI.good q.number hlist hev
  refine ⟨sk, cfg1, cfg2, aff, hq, hin.1, hsk, hlist, hb, ⟨l1, l2, hl, hf⟩, hev, h2, h3, h1, hpo, ?_⟩
  intro e he t ht v hv
  obtain ⟨a1, a2, a3⟩ := Config.mem_acting he
  obtain ⟨i, hi⟩ := List.mem_iff_getElem?.1 hv
  rw [List.getElem?_zipWith] at hi
  cases hti : t[i]? with
  | none => rw [hti] at hi; cases hi
  | some y =>
    cases hui : e.1.updateTypes[i]? with
    | none => rw [hti, hui] at hi; cases hi
    | some u =>
      rw [hti, hui] at hi
      cases hi
      have hil : i < e.1.matchTypes.length := by
        have := (List.getElem?_eq_some_iff.1 hui).1
        rw [hpo.updates _ a1] at this
        rw [hpo.sized _ a1]
        exact this
      have hx := List.getElem?_eq_getElem hil
      have h4 := acting_counts (q := q.still) hpo hl hf he ht i _ y hx hti
      have h5 := hpo.safe e.1 a1 a3 i _ u hx hui
      omega

section Event

variable {s : MState K} {j site : Nat} {q : Proc K} {sk : List (CEntry K)} {cfg1 cfg2 : Config K}
  {aff : List Nat}

/-- The sites at which something changed. -/
def changed (s : MState K) (q : Proc K) (sk : List (CEntry K)) : List Nat :=
  (acting q.matchList (seen s.cfg.types sk)).map (·.2.index)

theorem Event.types (h : W.Event s j site q sk cfg1 cfg2 aff) : cfg2.types = cfg1.types := by
  rw [h.moved.rest]

theorem Event.elements (h : W.Event s j site q sk cfg1 cfg2 aff) : cfg2.elements = cfg1.elements := by
  rw [h.moved.rest]

theorem Event.typeOff (h : W.Event s j site q sk cfg1 cfg2 aff) {i : Nat} (hi : i ∉ changed s q sk) :
    cfg2.types[i]? = s.cfg.types[i]? := by
  rw [h.types]; exact h.done.typeOff i hi

theorem Event.elementOff (h : W.Event s j site q sk cfg1 cfg2 aff) {i : Nat} (hi : i ∉ changed s q sk) :
    cfg2.elements[i]? = s.cfg.elements[i]? := by
  rw [h.elements]; exact h.done.elementOff i hi

theorem Event.typeAt (h : W.Event s j site q sk cfg1 cfg2 aff) {e : PEntry K × CEntry K}
    (he : e ∈ acting q.matchList (seen s.cfg.types sk)) {t : Bucket} (ht : s.cfg.types[e.2.index]? = some t) :
    cfg2.types[e.2.index]? = some (List.zipWith (· + ·) t e.1.updateTypes) := by
  rw [h.types]; exact h.done.typeAt e he t ht

theorem Event.elementAt (h : W.Event s j site q sk cfg1 cfg2 aff) {e : PEntry K × CEntry K}
    (he : e ∈ acting q.matchList (seen s.cfg.types sk)) {t : Bucket} (ht : cfg2.types[e.2.index]? = some t) :
    ∃ els, Config.elementsOf s.cfg.typeNames t = .ok els ∧ cfg2.elements[e.2.index]? = some els := by
  rw [h.types] at ht
  rw [h.elements]
  exact h.done.elementAt e he t ht

theorem Event.aff_eq (h : W.Event s j site q sk cfg1 cfg2 aff) :
    aff = changed s q sk ++ q.affected.drop (changed s q sk).length := by
  have := h.done.aff
  simpa [changed] using this

theorem Event.coords (h : W.Event s j site q sk cfg1 cfg2 aff) : cfg2.coords = s.cfg.coords := by
  rw [h.moved.rest, h.done.rest]

theorem Event.names (h : W.Event s j site q sk cfg1 cfg2 aff) : cfg2.typeNames = s.cfg.typeNames := by
  rw [h.moved.rest, h.done.rest]

theorem Event.lists (h : W.Event s j site q sk cfg1 cfg2 aff) : cfg2.matchLists = s.cfg.matchLists := by
  rw [h.moved.rest, h.done.rest]

theorem Event.changed_lt (h : W.Event s j site q sk cfg1 cfg2 aff) {i : Nat} (hi : i ∈ changed s q sk) :
    i < W.n := by
  obtain ⟨e, he, rfl⟩ := List.mem_map.1 hi
  exact h.ready.index _ (Config.mem_acting he).2.1

theorem Event.good (h : W.Event s j site q sk cfg1 cfg2 aff) (hg : s.cfg.Good W.n W.nT) :
    cfg2.Good W.n W.nT := by
  have htl : cfg2.types.length = W.n := by rw [h.types, h.done.typesLen]; exact hg.shape.types
  have hel : cfg2.elements.length = W.n := by rw [h.elements, h.done.elementsLen]; exact hg.shape.elements
  have hidl : cfg2.atomId.length = W.n := by
    rw [h.moved.idsLen, h.done.rest]; exact hg.shape.atomId
  refine ⟨⟨?_, hel, htl, hidl, ?_, ?_, ?_⟩, ?_, ?_, ?_, ?_, ?_, ?_, ?_⟩
  · rw [h.coords]; exact hg.shape.coords
  · rw [h.moved.idElsLen, h.done.idElsLen]; exact hg.shape.atomIdElements
  · have : cfg2.atomIdCoords = cfg1.atomIdCoords := by rw [h.moved.rest]
    rw [this, h.done.idCoordsLen]; exact hg.shape.atomIdCoords
  · rw [h.lists]; exact hg.shape.matchLists
  · rw [h.names]; exact hg.names
  · rw [h.moved.rest, h.done.rest]; exact hg.possible
  · intro t ht
    obtain ⟨i, hi⟩ := List.mem_iff_getElem?.1 ht
    by_cases hc : i ∈ changed s q sk
    · have hlt := h.changed_lt hc
      obtain ⟨e, he, rfl⟩ := List.mem_map.1 hc
      have ht0 := List.getElem?_eq_getElem (l := s.cfg.types) (i := e.2.index) (by rw [hg.shape.types]; exact hlt)
      rw [h.typeAt he ht0, Option.some.injEq] at hi
      rw [← hi, List.length_zipWith, h.ready.update _ (Config.mem_acting he).1 (Config.mem_acting he).2.2,
        hg.bucket _ (List.getElem_mem _)]
      simp
    · rw [h.typeOff hc] at hi
      exact hg.bucket t (List.mem_of_getElem? hi)
  · intro x hx
    obtain ⟨i, hi⟩ := List.mem_iff_getElem?.1 hx
    have hid1 : cfg1.atomId = s.cfg.atomId := by rw [h.done.rest]
    rcases h.moved.idMem i x hi with hm | hm
    · rw [hid1] at hm
      exact hg.idsLt x (List.mem_of_getElem? hm)
    · obtain ⟨mv, hmv, heq⟩ := List.mem_map.1 hm
      simp only [Prod.mk.injEq] at heq
      have hmv1 := (h.ready.moves mv hmv).1
      rw [← heq.1, Config.moveFrom_eq (List.getElem?_eq_getElem (h.ready.moves mv hmv).1)]
      have hlt : (seen s.cfg.types sk)[mv.1].index < s.cfg.atomId.length := by
        rw [hg.shape.atomId]; exact h.ready.index _ (List.getElem_mem _)
      rw [List.getD_eq_getElem?_getD, List.getElem?_eq_getElem hlt]
      exact hg.idsLt _ (List.getElem_mem _)
  · intro els hels
    obtain ⟨i, hi⟩ := List.mem_iff_getElem?.1 hels
    by_cases hc : i ∈ changed s q sk
    · have hlt := h.changed_lt hc
      obtain ⟨e, he, rfl⟩ := List.mem_map.1 hc
      have ht0 := List.getElem?_eq_getElem (l := s.cfg.types) (i := e.2.index) (by rw [hg.shape.types]; exact hlt)
      obtain ⟨els', h1, h2⟩ := h.elementAt he (h.typeAt he ht0)
      rw [h2, Option.some.injEq] at hi
      rw [← hi]
      exact Config.elementsOf_ne_nil _ _ _ h1 (h.ready.nonempty e he _ ht0)
    · rw [h.elementOff hc] at hi
      exact hg.elements els (List.mem_of_getElem? hi)
  · rw [h.names]; exact hg.distinct
  · intro i els t hi ht
    by_cases hc : i ∈ changed s q sk
    · have hlt := h.changed_lt hc
      obtain ⟨e, he, rfl⟩ := List.mem_map.1 hc
      have ht0 := List.getElem?_eq_getElem (l := s.cfg.types) (i := e.2.index) (by rw [hg.shape.types]; exact hlt)
      have ht1 := h.typeAt he ht0
      rw [ht, Option.some.injEq] at ht1
      obtain ⟨els', h1, h2⟩ := h.elementAt he ht
      rw [h2, Option.some.injEq] at hi
      subst hi
      refine ⟨?_, ?_⟩
      · rw [h.names]; exact Config.elementsOf_mem _ _ _ h1
      · intro k name hk
        rw [h.names] at hk
        have hkl : k < t.length := by
          have := (List.getElem?_eq_some_iff.1 hk).1
          rw [hg.names] at this
          rw [ht1, List.length_zipWith, h.ready.update _ (Config.mem_acting he).1 (Config.mem_acting he).2.2,
            hg.bucket _ (List.getElem_mem _)]
          simpa using this
        rw [List.getElem?_eq_getElem hkl]
        have := Config.elementsOf_count _ _ _ h1 hg.distinct (by rw [ht1]; exact h.nonneg e he _ ht0) k name _ hk
          (List.getElem?_eq_getElem hkl)
        rw [this]
    · rw [h.elementOff hc] at hi
      rw [h.typeOff hc] at ht
      rw [h.names]
      exact hg.tallied i els t hi ht

end Event
end World
end KMC

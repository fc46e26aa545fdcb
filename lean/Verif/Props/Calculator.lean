import Verif.Props.Event

/-!
# C35: what the rate calculator is shown
-/

set_option linter.unusedSectionVars false

namespace KMC

variable {K : Type _} [Field K] [LinearOrder K] [IsStrictOrderedRing K]
variable {env : Env K} {n nT : Nat} {negLog : K → Option K} {cfg : Config K} {procs : List (Proc K)} {s : Sim K}

open LatticeModel

/-- The name that the entry puts in the place of another. -/
def afterName (names : List String) (e : PEntry K) (old : String) : String :=
  if e.Changes then ((Matcher.firstOne e.updateTypes).bind (names[·]?)).getD old else old

theorem afterStep_eq {c : Config K} {st st' : List Bucket × List String} {e : PEntry K × Nat}
    (h : Matcher.afterStep c st e = .ok st') (h0 : e.1.updateTypes[0]? = some 0) :
    st'.1 = st.1.set e.2 e.1.updateTypes ∧
    st'.2 = match st.2[e.2]? with
      | some old => st.2.set e.2 (afterName c.typeNames e.1 old)
      | none => st.2 := by
  unfold Matcher.afterStep at h
  obtain ⟨u, hu, h⟩ := bind_ok.1 h
  rw [wr_ok] at hu
  have hsame : ∀ old, st.2[e.2]? = some old → st.2.set e.2 old = st.2 := by
    intro old ho
    obtain ⟨a, b⟩ := List.getElem?_eq_some_iff.1 ho
    rw [← b, List.set_getElem_self]
  have keep : ∀ (hk : ∀ old, afterName c.typeNames e.1 old = old), st.2 = match st.2[e.2]? with
      | some old => st.2.set e.2 (afterName c.typeNames e.1 old)
      | none => st.2 := by
    intro hk
    cases ho : st.2[e.2]? with
    | none => rfl
    | some old => simp only [hk]; rw [hsame old ho]
  have hpos := Config.absSum_pos_iff e.1.updateTypes
  split at h
  · next ha =>
    have hch : e.1.Changes := hpos.1 (by
      have : 0 ≤ Config.absSum e.1.updateTypes := by
        by_contra hc
        have key : ∀ (l : List Int) (a : Int), 0 ≤ a → 0 ≤ l.foldl (fun s v => s + |v|) a := by
          intro l
          induction l with
          | nil => intro a h; exact h
          | cons v l ih => intro a h; exact ih _ (by positivity)
        exact hc (key _ 0 le_rfl)
      omega)
    obtain ⟨w, hw, h⟩ := bind_ok.1 h
    have hwf : w = false := by
      unfold Bucket.isSingle at hw
      split at hw
      · cases hw
      · have hw := Except.ok.inj hw
        rw [← hw]
        cases hl : e.1.updateTypes with
        | nil => rw [hl] at h0; cases h0
        | cons a as =>
          rw [hl] at h0
          have h0 : a = 0 := by simpa using h0
          subst h0
          rfl
    rw [if_pos hwf] at h
    split at h
    · next j hj =>
      obtain ⟨name, hname, h⟩ := bind_ok.1 h
      obtain ⟨a, ha', h⟩ := bind_ok.1 h
      rw [wr_ok] at ha'
      have h := Except.ok.inj h
      rw [← h]
      refine ⟨hu.2.symm, ?_⟩
      obtain ⟨hlt, rfl⟩ := ha'
      rw [List.getElem?_eq_getElem hlt]
      show st.2.set e.2 name = st.2.set e.2 _
      unfold afterName
      rw [if_pos hch, hj, Option.bind_some, rd_ok.1 hname, Option.getD_some]
    · next hj =>
      have h := Except.ok.inj h
      rw [← h]
      refine ⟨hu.2.symm, keep fun old => ?_⟩
      unfold afterName
      rw [if_pos hch, hj]
      rfl
  · next ha =>
    have h := Except.ok.inj h
    rw [← h]
    refine ⟨hu.2.symm, keep fun old => ?_⟩
    unfold afterName
    rw [if_neg]
    intro hc
    have := hpos.2 hc
    omega

theorem afterLoop_eq {c : Config K} : ∀ (l : List (PEntry K)) (i : Nat) (st st' : List Bucket × List String),
    (∀ e ∈ l, e.updateTypes[0]? = some 0) → loopM (Matcher.afterStep c) (l.zipIdx i) st = .ok st' →
    (∀ k, st'.1[k]? = if i ≤ k ∧ k < st.1.length then (match l[k - i]? with
      | some e => some e.updateTypes
      | none => st.1[k]?) else st.1[k]?) ∧
    (∀ k, st'.2[k]? = if i ≤ k then (match l[k - i]? with
      | some e => st.2[k]?.map (afterName c.typeNames e)
      | none => st.2[k]?) else st.2[k]?)
  | [], i, st, st', _, h => by
    have h := Except.ok.inj h
    subst h
    refine ⟨fun k => ?_, fun k => ?_⟩ <;> simp
  | e :: l, i, st, st', h0, h => by
    rw [List.zipIdx_cons, loopM_cons] at h
    obtain ⟨st1, h1, h2⟩ := bind_ok.1 h
    obtain ⟨a1, a2⟩ := afterStep_eq h1 (h0 e (by simp))
    obtain ⟨b1, b2⟩ := afterLoop_eq l (i + 1) st1 st' (fun e he => h0 e (by simp [he])) h2
    have hlen : st1.1.length = st.1.length := by rw [a1, List.length_set]
    refine ⟨fun k => ?_, fun k => ?_⟩
    · rw [b1 k, hlen, a1]
      dsimp only
      by_cases hk : k = i
      · subst hk
        rw [if_neg (by omega)]
        by_cases hl : k < st.1.length
        · rw [if_pos ⟨le_rfl, hl⟩, List.getElem?_set_self hl]
          simp
        · rw [if_neg (by omega), List.getElem?_eq_none_iff.2 (by rw [List.length_set]; omega),
            List.getElem?_eq_none_iff.2 (by omega)]
      · rw [List.getElem?_set_ne (Ne.symm hk)]
        by_cases hle : i + 1 ≤ k
        · have e1 : k - i = (k - (i + 1)) + 1 := by omega
          rw [e1, List.getElem?_cons_succ]
          by_cases hl : k < st.1.length
          · rw [if_pos ⟨hle, hl⟩, if_pos ⟨by omega, hl⟩]
          · rw [if_neg (by omega), if_neg (by omega)]
        · rw [if_neg (by omega), if_neg (by omega)]
    · rw [b2 k]
      have hk2 : ∀ k, st1.2[k]? = if k = i then st.2[k]?.map (afterName c.typeNames e) else st.2[k]? := by
        intro k
        rw [a2]
        dsimp only
        cases ho : st.2[i]? with
        | none =>
          dsimp only
          split
          · next hk => rw [hk, ho]; rfl
          · rfl
        | some old =>
          dsimp only
          split
          · next hk =>
            rw [hk, List.getElem?_set_self (List.getElem?_eq_some_iff.1 ho).1, ho]
            rfl
          · next hk => rw [List.getElem?_set_ne (Ne.symm hk)]
      rw [hk2 k]
      by_cases hk : k = i
      · subst hk
        rw [if_neg (by omega), if_pos rfl, if_pos le_rfl]
        simp
      · rw [if_neg hk]
        by_cases hle : i + 1 ≤ k
        · have e1 : k - i = (k - (i + 1)) + 1 := by omega
          rw [if_pos hle, if_pos (by omega), e1, List.getElem?_cons_succ]
        · rw [if_neg (by omega), if_neg (by omega)]

/-- What the arguments of the calculator say, for the sites `near` around a site. -/
structure Shown (c : Config K) (p : Proc K) (site : Nat) (near : List (CEntry K)) (a : RateArgs K) : Prop where
  /-- an ordinary process is shown with the elements of the sites before and after -/
  plain : p.bucketProcess = false → ∃ before after g, a = .plain (near.map (·.coord)) before after p.rate p.number g ∧
    c.coords[site]? = some g ∧ before.length = near.length ∧ after.length = near.length ∧
    (∀ (k : Nat) (e : CEntry K), near[k]? = some e →
      ∃ els, c.elements[e.index]? = some els ∧ before[k]? = els[0]?) ∧
    ∀ (k : Nat), after[k]? = match p.matchList[k]? with
      | some e => before[k]?.map (afterName c.typeNames e)
      | none => before[k]?
  /-- a bucket process is shown with the counts at the sites and the changes -/
  buckets : p.bucketProcess = true → ∃ occ upd g,
    a = .buckets (near.map (·.coord)) occ upd c.typeNames p.rate p.number g ∧
    c.coords[site]? = some g ∧ occ.length = near.length ∧ upd.length = near.length ∧
    (∀ (k : Nat) (e : CEntry K), near[k]? = some e → occ[k]? = c.types[e.index]?) ∧
    ∀ (k : Nat), k < near.length → ∃ u, upd[k]? = some u ∧ match p.matchList[k]? with
      | some e => u = e.updateTypes
      | none => (∀ v ∈ u, v = 0) ∧ ∃ t ∈ occ, u.length = t.length

theorem shown_of_args {c : Config K} {p : Proc K} {site : Nat} {ml : List (CEntry K)} {a : RateArgs K}
    (hml : c.matchLists[site]? = some ml) (h0 : ∀ e ∈ p.matchList, e.updateTypes[0]? = some 0)
    (h : Matcher.rateArgs c p site = .ok a) :
    Shown c p site (ml.takeWhile (fun e => decide (e.distance ≤ p.cutoff))) a := by
  rw [Matcher.rateArgs_eq p hml] at h
  unfold Matcher.rateArgsOn at h
  dsimp only at h
  obtain ⟨before, hb, h⟩ := bind_ok.1 h
  obtain ⟨occ, ho, h⟩ := bind_ok.1 h
  obtain ⟨occ0, hocc0, h⟩ := bind_ok.1 h
  obtain ⟨st, hst, h⟩ := bind_ok.1 h
  obtain ⟨g, hg, h⟩ := bind_ok.1 h
  have hbl := mapMM_length hb
  have hol := mapMM_length ho
  unfold Matcher.withinCutoff at hbl hol hb ho hst h
  obtain ⟨u1, u2⟩ := afterLoop_eq _ 0 _ _ h0 hst
  have l2 : st.2.length = before.length := by
    apply le_antisymm
    · by_contra hc
      have hk := u2 before.length
      rw [List.getElem?_eq_getElem (by omega)] at hk
      simp only [zero_le, if_true, Nat.sub_zero] at hk
      rw [List.getElem?_eq_none_iff.2 (le_refl before.length)] at hk
      split at hk <;> simp at hk
    · by_contra hc
      have hk := u2 st.2.length
      rw [List.getElem?_eq_none_iff.2 (le_refl st.2.length), List.getElem?_eq_getElem (show st.2.length < before.length by omega)] at hk
      simp only [zero_le, if_true, Nat.sub_zero] at hk
      split at hk <;> simp at hk
  refine ⟨fun hbk => ?_, fun hbk => ?_⟩
  · rw [if_pos hbk] at h
    refine ⟨before, st.2, g, (Except.ok.inj h).symm, rd_ok.1 hg, hbl, l2.trans hbl, ?_, ?_⟩
    · intro k e he
      obtain ⟨y, hy, hf⟩ := mapMM_getElem? hb he
      unfold Matcher.firstElement at hf
      obtain ⟨els, hels, hf⟩ := bind_ok.1 hf
      exact ⟨els, rd_ok.1 hels, by rw [hy, rd_ok.1 hf]⟩
    · intro k
      have := u2 k
      simp only [zero_le, if_true, Nat.sub_zero] at this
      exact this
  · rw [if_neg (by rw [hbk]; decide)] at h
    have hul : st.1.length = (ml.takeWhile (fun e => decide (e.distance ≤ p.cutoff))).length := by
      apply le_antisymm
      · by_contra hc
        have hk := u1 (ml.takeWhile (fun e => decide (e.distance ≤ p.cutoff))).length
        rw [List.getElem?_eq_getElem (by omega), List.length_replicate, if_neg (by omega),
          List.getElem?_eq_none_iff.2 (by rw [List.length_replicate])] at hk
        cases hk
      · by_contra hc
        have hk := u1 st.1.length
        rw [List.getElem?_eq_none_iff.2 (le_refl st.1.length), List.length_replicate, if_pos ⟨Nat.zero_le _, by omega⟩] at hk
        split at hk
        · cases hk
        · rw [List.getElem?_replicate, if_pos (by omega)] at hk
          cases hk
    refine ⟨occ, st.1, g, (Except.ok.inj h).symm, rd_ok.1 hg, hol, hul, ?_, ?_⟩
    · intro k e he
      obtain ⟨y, hy, hf⟩ := mapMM_getElem? ho he
      rw [hy]
      exact (rd_ok.1 hf).symm
    · intro k hk
      have := u1 k
      rw [List.length_replicate, if_pos ⟨Nat.zero_le _, hk⟩, Nat.sub_zero] at this
      split at this
      · next e he => exact ⟨_, this, rfl⟩
      · next he =>
        rw [List.getElem?_replicate, if_pos hk] at this
        refine ⟨_, this, ?_, occ0, List.mem_of_getElem? (rd_ok.1 hocc0), List.length_replicate⟩
        intro v hv
        exact (List.mem_replicate.1 hv).2

/-- Entries of processes of a run do not change the wildcard slot. -/
theorem GoodRun.slot (h : GoodRun env n nT negLog cfg procs s) {j : Nat} {p : Proc K}
    (hp : s.ms.procs[j]? = some p) : ∀ e ∈ p.matchList, e.updateTypes[0]? = some 0 := by
  obtain ⟨cfg1, procs1, hprep, hok, ⟨hinv, -⟩, -⟩ := h.inv
  obtain ⟨p0, hp0, hf⟩ := World.source hprep hinv hp
  obtain ⟨A, hI⟩ := hinv
  have hw := h.input.processes p0 (List.mem_of_getElem? hp0)
  intro e he
  rcases hf.entry e he with h1 | ⟨c, hc⟩
  · exact hw.slot e h1
  · have hl : e.updateTypes.length = nT := (hok.proc p.still (List.mem_of_getElem? (hI.proc hp))).updates e he
    have hT := h.input.typed
    subst hc
    simp only [wildcardFor, Bucket.zeros, List.length_replicate] at hl ⊢
    rw [List.getElem?_replicate, if_pos (by omega)]

/-- **C35** In every state of every run with custom rates, the rate of an available event is the answer
of the calculator to arguments that show, for the leading entries of the surroundings up to the first
one beyond the cutoff, the present elements (for ordinary processes) or counts (for bucket processes),
the rate constant, the process number and the coordinate of the site. (This is for calculators without
caching or with keys that decide the answer, see C33.) -/
theorem C35_shown (h : GoodRun env n nT negLog cfg procs s) (hcu : env.useCustomRates = true) {j : Nat} {p : Proc K}
    (hp : s.ms.procs[j]? = some p) (hc : p.custom = true) {k site : Nat} {r : K} (hs : p.sites[k]? = some site)
    (hr : p.siteRates[k]? = some r) :
    ∃ ml a, Surroundings env procs s.ms.cfg site = .ok ml ∧ r = env.callback a ∧
      Matcher.rateArgs s.ms.cfg p site = .ok a ∧
      Shown s.ms.cfg p site (ml.takeWhile (fun e => decide (e.distance ≤ p.cutoff))) a := by
  obtain ⟨-, ⟨ml, hml, hml'⟩, a, ha, hra⟩ := rate_current h hcu hp hc hs hr
  exact ⟨ml, a, hml, hra, ha, shown_of_args hml' (h.slot hp) ha⟩

/-- **C35** Where distances are equal or at least the tolerance apart, the sites shown are exactly the
listed sites within the cutoff. -/
theorem C35_all_within_cutoff_partial (h : GoodRun env n nT negLog cfg procs s) {site : Nat} {ml : List (CEntry K)} (cutoff : K)
    (hml : Surroundings env procs s.ms.cfg site = .ok ml)
    (hsep : ∀ a ∈ ml, ∀ b ∈ ml, a.distance = b.distance ∨ 1 / 100000 ≤ |b.distance - a.distance|) :
    ml.takeWhile (fun e => decide (e.distance ≤ cutoff)) = ml.filter (fun e => decide (e.distance ≤ cutoff)) := by
  have hsorted := C08_sorted_partial env.dist env.L s.ms.cfg site _ ml hml hsep
  clear hml hsep
  induction ml with
  | nil => rfl
  | cons e l ih =>
    rw [List.pairwise_cons] at hsorted
    by_cases he : e.distance ≤ cutoff
    · rw [List.takeWhile_cons_of_pos (by simpa using he), List.filter_cons_of_pos (by simpa using he), ih hsorted.2]
    · rw [List.takeWhile_cons_of_neg (by simpa using he), List.filter_cons_of_neg (by simpa using he)]
      symm
      rw [List.filter_eq_nil_iff]
      intro f hf
      have := hsorted.1 f hf
      simp only [decide_eq_true_eq]
      rcases this with h1 | ⟨h1, -⟩
      · exact fun h2 => he (h1.le.trans h2)
      · exact fun h2 => he (h1.le.trans h2)

/-- What happens at the entry in place `k` of the surroundings. -/
theorem entry_after (h : GoodRun env n nT negLog cfg procs s) {s' : Sim K} {u1 u2 : K}
    {r : Nat × Nat × List (Proc K)} (hsel : select s.ms.procs s.table u1 u2 = .ok r)
    (hs : singleStep env s u1 u2 = .ok s') {p : Proc K} (hp : s.ms.procs[r.1]? = some p) {ml : List (CEntry K)}
    (hml : Surroundings env procs s.ms.cfg r.2.1 = .ok ml) (hnd : (ml.map (·.index)).Nodup) {k : Nat} {e : CEntry K}
    (he : ml[k]? = some e) :
    (∃ x t, p.matchList[k]? = some x ∧ x.Changes ∧ s.ms.cfg.types[e.index]? = some t ∧
      s'.ms.cfg.types[e.index]? = some (List.zipWith (· + ·) t x.updateTypes)) ∨
    ((∀ x, p.matchList[k]? = some x → ¬ x.Changes) ∧ s'.ms.cfg.types[e.index]? = s.ms.cfg.types[e.index]? ∧
      s'.ms.cfg.elements[e.index]? = s.ms.cfg.elements[e.index]?) := by
  obtain ⟨p', ml', h1, -, h2, -, -, hon, hoff⟩ := C17_exact h hsel hs
  rw [hp, Option.some.injEq] at h1
  subst h1
  rw [hml] at h2
  have h2 := Except.ok.inj h2
  subst h2
  by_cases hx : ∃ x, p.matchList[k]? = some x ∧ x.Changes
  · obtain ⟨x, hx, hch⟩ := hx
    left
    have hmem : (x, e) ∈ Targets p ml := by
      unfold Targets
      rw [List.mem_filter]
      exact ⟨List.mem_iff_getElem?.2 ⟨k, by rw [List.getElem?_zip_eq_some]; exact ⟨hx, he⟩⟩, by simpa using hch⟩
    obtain ⟨-, t, ht, ht'⟩ := hon _ hmem
    exact ⟨x, t, hx, hch, ht, ht'⟩
  · right
    push Not at hx
    refine ⟨hx, ?_⟩
    apply hoff
    intro hmem
    obtain ⟨⟨x', e'⟩, hm, hidx⟩ := List.mem_map.1 hmem
    have hidx : e'.index = e.index := hidx
    unfold Targets at hm
    rw [List.mem_filter] at hm
    obtain ⟨k', hk'⟩ := List.mem_iff_getElem?.1 hm.1
    rw [List.getElem?_zip_eq_some] at hk'
    have h1 : (ml.map (·.index))[k]? = some e.index := by rw [List.getElem?_map, he]; rfl
    have h2 : (ml.map (·.index))[k']? = some e.index := by
      rw [List.getElem?_map, hk'.2, ← hidx]; rfl
    obtain ⟨a1, a2⟩ := List.getElem?_eq_some_iff.1 h1
    obtain ⟨b1, b2⟩ := List.getElem?_eq_some_iff.1 h2
    have : k = k' := (List.Nodup.getElem_inj_iff hnd).1 (a2.trans b2.symm)
    subst this
    exact hx x' hk'.1 (by simpa using hm.2)

/-- **C35** The changes shown for a bucket process are those that performing it makes: after the event
the counts at every shown site are the shown counts plus the shown changes. (On boxes so narrow that a
site is listed twice this need not be so; see C02.) -/
theorem C35_updates (h : GoodRun env n nT negLog cfg procs s) {s' : Sim K} {u1 u2 : K}
    {r : Nat × Nat × List (Proc K)} (hsel : select s.ms.procs s.table u1 u2 = .ok r)
    (hs : singleStep env s u1 u2 = .ok s') {p : Proc K} (hp : s.ms.procs[r.1]? = some p) {ml : List (CEntry K)}
    (hml : Surroundings env procs s.ms.cfg r.2.1 = .ok ml) (hnd : (ml.map (·.index)).Nodup)
    {geo : List (Coord K)} {occ upd : List Bucket} {names : List String} {rc : K} {pn : Nat} {g : Coord K}
    (hb : p.bucketProcess = true)
    (ha : Shown s.ms.cfg p r.2.1 (ml.takeWhile (fun e => decide (e.distance ≤ p.cutoff)))
      (.buckets geo occ upd names rc pn g)) {k : Nat} {e : CEntry K}
    (he : (ml.takeWhile (fun e => decide (e.distance ≤ p.cutoff)))[k]? = some e) :
    ∃ t u t', occ[k]? = some t ∧ upd[k]? = some u ∧ s'.ms.cfg.types[e.index]? = some t' ∧
      ∀ m, t'.getD m 0 = t.getD m 0 + u.getD m 0 := by
  obtain ⟨occ', upd', g', h1, -, hol, -, h2, h3⟩ := ha.buckets hb
  simp only [RateArgs.buckets.injEq] at h1
  obtain ⟨-, rfl, rfl, -⟩ := h1
  have hk : k < (ml.takeWhile (fun e => decide (e.distance ≤ p.cutoff))).length := (List.getElem?_eq_some_iff.1 he).1
  have heml : ml[k]? = some e := by
    obtain ⟨l2, hl2⟩ := List.takeWhile_prefix (l := ml) (fun e => decide (e.distance ≤ p.cutoff))
    rw [← hl2, List.getElem?_append_left hk]
    exact he
  obtain ⟨u, hu, hu'⟩ := h3 k hk
  have ho := h2 k e he
  rcases entry_after h hsel hs hp hml hnd heml with ⟨x, t, hx, -, ht, ht'⟩ | ⟨hx, ht, -⟩
  · rw [hx] at hu'
    have hu' : u = x.updateTypes := hu'
    refine ⟨t, u, _, by rw [ho, ht], hu, ht', fun m => ?_⟩
    subst hu'
    have l1 : x.updateTypes.length = nT := by
      obtain ⟨cfg1, procs1, hprep, hok, ⟨⟨A, hI⟩, -⟩, -⟩ := h.inv
      exact (hok.proc p.still (List.mem_of_getElem? (hI.proc hp))).updates x (List.mem_of_getElem? hx)
    have l2 : t.length = nT := h.good.bucket t (List.mem_of_getElem? ht)
    simp only [List.getD_eq_getElem?_getD, List.getElem?_zipWith]
    by_cases hm : m < nT
    · rw [List.getElem?_eq_getElem (show m < t.length by omega),
        List.getElem?_eq_getElem (show m < x.updateTypes.length by omega)]
      rfl
    · rw [List.getElem?_eq_none_iff.2 (show t.length ≤ m by omega),
        List.getElem?_eq_none_iff.2 (show x.updateTypes.length ≤ m by omega)]
      rfl
  · have hlt : e.index < s.ms.cfg.types.length := by
      by_contra hc
      rw [List.getElem?_eq_none_iff.2 (show s.ms.cfg.types.length ≤ e.index by omega), List.getElem?_eq_none_iff] at ho
      omega
    refine ⟨_, u, _, by rw [ho, List.getElem?_eq_getElem hlt], hu, by rw [ht, List.getElem?_eq_getElem hlt], fun m => ?_⟩
    have hz : u.getD m 0 = 0 := by
      have hall : ∀ v ∈ u, v = 0 := by
        cases hxk : p.matchList[k]? with
        | none => rw [hxk] at hu'; exact hu'.1
        | some x =>
          rw [hxk] at hu'
          have hu' : u = x.updateTypes := hu'
          have := hx x hxk
          unfold PEntry.Changes at this
          push Not at this
          rw [hu']
          exact this
      rw [List.getD_eq_getElem?_getD]
      cases hm : u[m]? with
      | none => rfl
      | some v => exact hall v (List.mem_of_getElem? hm)
    rw [hz, add_zero]

/-- The bucket of a site with one particle. -/
theorem one_of_good {c : Config K} (hg : c.Good n nT) {i : Nat} {a : String} {t : Bucket}
    (he : c.elements[i]? = some [a]) (ht : c.types[i]? = some t) :
    ∃ m, c.typeNames[m]? = some a ∧ ∀ k, t.getD k 0 = if k = m then 1 else 0 := by
  obtain ⟨h1, h2⟩ := hg.tallied i _ t he ht
  obtain ⟨m, hm⟩ := List.mem_iff_getElem?.1 (h1 a (by simp))
  refine ⟨m, hm, fun k => ?_⟩
  rw [List.getD_eq_getElem?_getD]
  cases hk : c.typeNames[k]? with
  | none =>
    rw [List.getElem?_eq_none_iff] at hk
    have hl := hg.bucket t (List.mem_of_getElem? ht)
    have hn := hg.names
    rw [List.getElem?_eq_none_iff.2 (by omega), if_neg]
    · rfl
    · rintro rfl
      rw [List.getElem?_eq_none_iff.2 hk] at hm
      cases hm
  | some name =>
    rw [h2 k name hk, Option.getD_some, List.count_singleton]
    by_cases hkm : k = m
    · subst hkm
      rw [hm, Option.some.injEq] at hk
      simp [hk]
    · rw [if_neg hkm, if_neg]
      · rfl
      · intro hc
        have hc : a = name := by simpa using hc
        subst hc
        obtain ⟨a1, a2⟩ := List.getElem?_eq_some_iff.1 hk
        obtain ⟨b1, b2⟩ := List.getElem?_eq_some_iff.1 hm
        exact hkm ((List.Nodup.getElem_inj_iff hg.distinct).1 (a2.trans b2.symm))

/-- **C35** The elements shown as 'after' are those the sites have after the event, in a model with one
particle per site. -/
theorem C35_after (h : GoodRun env n nT negLog cfg procs s) {s' : Sim K} {u1 u2 : K}
    {r : Nat × Nat × List (Proc K)} (hsel : select s.ms.procs s.table u1 u2 = .ok r)
    (hs : singleStep env s u1 u2 = .ok s') {p : Proc K} (hp : s.ms.procs[r.1]? = some p) {ml : List (CEntry K)}
    (hml : Surroundings env procs s.ms.cfg r.2.1 = .ok ml) (hnd : (ml.map (·.index)).Nodup)
    (h' : GoodRun env n nT negLog cfg procs s')
    (hone : ∀ els ∈ s.ms.cfg.elements, els.length = 1) (hone' : ∀ els ∈ s'.ms.cfg.elements, els.length = 1)
    {geo : List (Coord K)} {before after : List String} {rc : K} {pn : Nat} {g : Coord K}
    (hb : p.bucketProcess = false)
    (ha : Shown s.ms.cfg p r.2.1 (ml.takeWhile (fun e => decide (e.distance ≤ p.cutoff)))
      (.plain geo before after rc pn g)) {k : Nat} {e : CEntry K}
    (he : (ml.takeWhile (fun e => decide (e.distance ≤ p.cutoff)))[k]? = some e) :
    ∃ b a, before[k]? = some b ∧ s.ms.cfg.elements[e.index]? = some [b] ∧ after[k]? = some a ∧
      s'.ms.cfg.elements[e.index]? = some [a] := by
  obtain ⟨before', after', g', h1, -, -, -, h2, h3⟩ := ha.plain hb
  simp only [RateArgs.plain.injEq] at h1
  obtain ⟨-, rfl, rfl, -⟩ := h1
  have hk : k < (ml.takeWhile (fun e => decide (e.distance ≤ p.cutoff))).length := (List.getElem?_eq_some_iff.1 he).1
  have heml : ml[k]? = some e := by
    obtain ⟨l2, hl2⟩ := List.takeWhile_prefix (l := ml) (fun e => decide (e.distance ≤ p.cutoff))
    rw [← hl2, List.getElem?_append_left hk]
    exact he
  obtain ⟨els, hels, hbe⟩ := h2 k e he
  obtain ⟨b, rfl⟩ := List.length_eq_one_iff.1 (hone els (List.mem_of_getElem? hels))
  have hbk : before[k]? = some b := hbe
  have hak := h3 k
  rw [hbk] at hak
  have hlt : e.index < n := by
    rw [← h.good.shape.elements]
    exact (List.getElem?_eq_some_iff.1 hels).1
  rcases entry_after h hsel hs hp hml hnd heml with ⟨x, t, hx, hch, ht, ht'⟩ | ⟨hx, -, hel⟩
  · have hlt' : e.index < s'.ms.cfg.elements.length := by rw [h'.good.shape.elements]; exact hlt
    obtain ⟨a, haa⟩ := List.length_eq_one_iff.1 (hone' _ (List.getElem_mem hlt'))
    have hels' : s'.ms.cfg.elements[e.index]? = some [a] := by rw [List.getElem?_eq_getElem hlt', haa]
    obtain ⟨m, hm, htm⟩ := one_of_good h.good hels ht
    obtain ⟨m', hm', htm'⟩ := one_of_good h'.good hels' ht'
    have l1 : x.updateTypes.length = nT := by
      obtain ⟨cfg1, procs1, hprep, hok, ⟨⟨A, hI⟩, -⟩, -⟩ := h.inv
      exact (hok.proc p.still (List.mem_of_getElem? (hI.proc hp))).updates x (List.mem_of_getElem? hx)
    have l2 : t.length = nT := h.good.bucket t (List.mem_of_getElem? ht)
    have hu : ∀ (i : Nat) (hi : i < nT), x.updateTypes[i]'(by omega) = (if i = m' then 1 else 0) - (if i = m then 1 else 0) := by
      intro i hi
      have a1 := htm i
      have a2 := htm' i
      rw [List.getD_eq_getElem?_getD, List.getElem?_eq_getElem (show i < t.length by omega), Option.getD_some] at a1
      rw [List.getD_eq_getElem?_getD, List.getElem?_zipWith, List.getElem?_eq_getElem (show i < t.length by omega),
        List.getElem?_eq_getElem (show i < x.updateTypes.length by omega)] at a2
      have a2 : t[i] + x.updateTypes[i] = if i = m' then 1 else 0 := a2
      omega
    have hm'lt : m' < nT := by
      rw [← h'.good.names]
      exact (List.getElem?_eq_some_iff.1 hm').1
    have hne : m' ≠ m := by
      rintro rfl
      obtain ⟨v, hv, hv0⟩ := hch
      obtain ⟨i, hi⟩ := List.mem_iff_getElem?.1 hv
      obtain ⟨hi1, hi2⟩ := List.getElem?_eq_some_iff.1 hi
      have := hu i (by omega)
      rw [hi2, sub_self] at this
      exact hv0 this
    have hfirst : Matcher.firstOne x.updateTypes = some m' := by
      unfold Matcher.firstOne
      rw [List.findIdx?_eq_some_iff_getElem]
      refine ⟨by omega, ?_, ?_⟩
      · rw [hu m' hm'lt, if_pos rfl, if_neg hne]
        rfl
      · intro i hi
        rw [hu i (by omega), if_neg (by omega)]
        split <;> decide
    have hname : s.ms.cfg.typeNames[m']? = some a := by rw [h.names, ← h'.names]; exact hm'
    rw [hx] at hak
    have hak : after[k]? = some (afterName s.ms.cfg.typeNames x b) := hak
    unfold afterName at hak
    rw [if_pos hch, hfirst, Option.bind_some, hname, Option.getD_some] at hak
    exact ⟨b, a, hbk, hels, hak, hels'⟩
  · refine ⟨b, b, hbk, hels, ?_, by rw [hel, hels]⟩
    cases hxk : p.matchList[k]? with
    | none => rw [hxk] at hak; exact hak
    | some x =>
      rw [hxk] at hak
      have hak : after[k]? = some (afterName s.ms.cfg.typeNames x b) := hak
      unfold afterName at hak
      rw [if_neg (hx x hxk)] at hak
      exact hak

set_option synthInstance.maxSize 5000 in
set_option synthInstance.maxHeartbeats 200000 in
/-- **C35** The completeness claim is false for distances closer than the tolerance. The neighbours of
the site are at 0.3 on the right and 0.300005 on the left; the left one comes first in the list and ends
it, so the right one, which is within the cutoff 0.3, is not shown. -/
theorem C35_missed : ∃ (cfg : Config ℚ) (procs : List (Proc ℚ)) (s : Sim ℚ) (p : Proc ℚ) (ml : List (CEntry ℚ)),
    Sample.config Sample.uneven Sample.nineA = .ok cfg ∧ Sample.lookAround = .ok procs ∧
    GoodRun (Sample.byNumber Sample.uneven) 9 4 Sample.lg cfg procs s ∧
    s.ms.procs[0]? = some p ∧ p.cutoff = 3 / 10 ∧ 0 ∈ p.sites ∧
    Surroundings (Sample.byNumber Sample.uneven) procs s.ms.cfg 0 = .ok ml ∧
    (∃ e ∈ ml, e.distance = 3 / 10 ∧ e.coord = ⟨3 / 10, 0, 0⟩) ∧
    Matcher.rateArgs s.ms.cfg p 0 = .ok (.plain [⟨0, 0, 0⟩] ["A"] ["B"] 2 0 ⟨0, 0, 0⟩) := by
  obtain ⟨cfg, procs, h1, h2, h3⟩ := Sample.goodCheck_ok (env := Sample.byNumber Sample.uneven) (P := Sample.uneven)
    (els := Sample.nineA) (procs := Sample.lookAround) (by decide +kernel)
  obtain ⟨s, hs, hf⟩ := Sample.exists_of_map
    (x := Sample.go (Sample.byNumber Sample.uneven) Sample.uneven Sample.nineA Sample.lookAround [])
    (f := fun s => (s.ms.procs.take 1).map (fun p => (p.cutoff, decide (0 ∈ p.sites),
      (Sample.lookAround >>= fun procs => Surroundings (Sample.byNumber Sample.uneven) procs s.ms.cfg 0).toOption.map
        (fun ml => ml.any (fun e => decide (e.distance = 3 / 10 ∧ e.coord = ⟨3 / 10, 0, 0⟩))),
      (Matcher.rateArgs s.ms.cfg p 0).toOption)))
    (b := [(3 / 10, true, some true, some (.plain [⟨0, 0, 0⟩] ["A"] ["B"] 2 0 ⟨0, 0, 0⟩))]) (by decide +kernel)
  have hg : CustomGeometry (Sample.byNumber Sample.uneven) cfg procs :=
    Sample.geometryCheck_ok (P := Sample.uneven) (els := Sample.nineA) (procs := Sample.lookAround) (by decide +kernel) h1 h2
  have hn : Sample.uneven.sites.length = 9 := by decide +kernel
  rw [hn] at h3
  have hrun : GoodRun (Sample.byNumber Sample.uneven) 9 4 Sample.lg cfg procs s :=
    ⟨h3, fun _ => Sample.byNumber_keys h3 hg, Sample.reached_of_go hs h1 h2⟩
  cases hp : s.ms.procs with
  | nil => rw [hp] at hf; cases hf
  | cons p ps =>
    rw [hp] at hf
    simp only [List.take_succ_cons, List.take_zero, List.map_cons, List.map_nil, List.cons.injEq, Prod.mk.injEq, and_true] at hf
    obtain ⟨a1, a2, a3, a4⟩ := hf
    rw [h2] at a3
    have a3 : (Surroundings (Sample.byNumber Sample.uneven) procs s.ms.cfg 0).toOption.map
        (fun ml => ml.any (fun e => decide (e.distance = 3 / 10 ∧ e.coord = ⟨3 / 10, 0, 0⟩))) = some true := a3
    cases hml : Surroundings (Sample.byNumber Sample.uneven) procs s.ms.cfg 0 with
    | error e => rw [hml] at a3; cases a3
    | ok ml =>
      cases ha : Matcher.rateArgs s.ms.cfg p 0 with
      | error e => rw [ha] at a4; cases a4
      | ok a =>
        rw [hml] at a3
        rw [ha] at a4
        have a4 := Option.some.inj a4
        have a3 := Option.some.inj a3
        rw [List.any_eq_true] at a3
        obtain ⟨e, he, he'⟩ := a3
        refine ⟨cfg, procs, s, p, ml, h1, h2, hrun, by rw [hp]; rfl, a1, by simpa using a2, hml, ⟨e, he, by simpa using he'⟩, ?_⟩
        rw [ha, ← a4]

/-- Non-vacuity: with a custom rate calculator on the ring, a hop is available, its arguments show the
ring before and after the hop, and no site is listed twice. -/
example : ∃ (cfg : Config ℚ) (procs : List (Proc ℚ)) (s : Sim ℚ) (p : Proc ℚ),
    GoodRun (Sample.byNumber Sample.ring) 4 4 Sample.lg cfg procs s ∧ s.ms.procs[0]? = some p ∧
    p.custom = true ∧ p.sites[0]? = some 2 ∧ p.siteRates[0]? = some 3 ∧ s.ms.cfg.elements = [["B"], ["B"], ["A"], ["B"]] := by
  obtain ⟨cfg, procs, s, h1, h2, h, -, h3, -, h4, h5, h6⟩ := Sample.customRing_run false
  obtain ⟨hlen, hsame⟩ := C24_same_processes h
  match hp : s.ms.procs, h5, h6 with
  | p :: ps, h5, h6 =>
    rw [List.map_cons, List.cons.injEq] at h5 h6
    have hl : 0 < procs.length := by rw [← hlen, hp]; simp
    have hc := (hsame 0 _ p (List.getElem?_eq_getElem hl) (by rw [hp]; rfl)).2.2.2.2.1
    refine ⟨cfg, procs, s, p, h, by rw [hp]; rfl, ?_, by rw [h5.1]; rfl, by rw [h6.1]; rfl, h4⟩
    rw [hc]
    exact (h3 _ (List.getElem_mem hl)).2

end KMC

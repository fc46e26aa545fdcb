import Verif.Props.FrontEnd
import Verif.Model.PyBucket
import Verif.Samples.Runs
import Mathlib.Tactic.FinCases

/-!
# Property C51: bucket processes and lists of processes
-/

set_option linter.unusedSectionVars false

namespace KMC

/-! ### What bucket input says -/

/-- An entry of bucket input lists the numbered particles `ps`. -/
def Py.Lists : Py → List (Int × String) → Prop
  | .lst l, ps => l.map Py.particles = ps.map some
  | t, ps => ∃ p, t.particles = some p ∧ ps = [p]

/-- The number of particles of type `s` in a list of numbered particles. -/
def amount (ps : List (Int × String)) (s : String) : Int := ((ps.filter (fun q => decide (q.2 = s))).map (·.1)).sum

/-- An update entry is a list (or tuple) of the pairs `us`. -/
def Py.Sets (t : Py) (us : List (Int × String)) : Prop :=
  t = .lst (us.map (fun u => .tup [.int u.1, .str u.2])) ∨ t = .tup (us.map (fun u => .tup [.int u.1, .str u.2]))

/-- The change of type `s` in an update entry: the last number given for it. -/
def change (us : List (Int × String)) (s : String) : Int :=
  match (us.filter (fun q => decide (q.2 = s))).getLast? with
  | some x => x.1
  | none => 0

namespace BucketInput

theorem normalise_lists {t : Py} {ps : List (Int × String)} (h : t.Lists ps) :
    ∃ qs : List (Int × String), normalise t = .ok (qs.map enc) ∧ (qs.map (·.2)).Nodup ∧
      (∀ s, s ∈ qs.map (·.2) ↔ s ∈ ps.map (·.2)) ∧ ∀ s, amount qs s = amount ps s := by
  cases t with
  | lst l => exact C40_list l ps h
  | str s =>
    obtain ⟨p, hp, rfl⟩ := h
    cases hp
    exact ⟨[(1, s)], rfl, by simp, by simp, fun _ => rfl⟩
  | int n => obtain ⟨p, hp, rfl⟩ := h; cases hp
  | other => obtain ⟨p, hp, rfl⟩ := h; cases hp
  | tup l =>
    obtain ⟨p, hp, rfl⟩ := h
    have := C40_single (.tup l) (by simp)
    rw [hp] at this
    exact ⟨[p], this, by simp, by simp, fun _ => rfl⟩

theorem normalise_again (qs : List (Int × String)) :
    ∃ rs : List (Int × String), normalise (.lst ((qs.map enc).map .tup)) = .ok (rs.map enc) ∧ (rs.map (·.2)).Nodup ∧
      (∀ s, s ∈ rs.map (·.2) ↔ s ∈ qs.map (·.2)) ∧ ∀ s, amount rs s = amount qs s := by
  apply C40_list
  rw [List.map_map, List.map_map]
  rfl

/-- The names pushed for the pairs of one site. -/
theorem expand_site (rs : List (Int × String)) (h : (rs.map (·.2)).Nodup) :
    ∃ parts, mapMM expandPair (rs.map enc) = .ok parts ∧ ∀ s : String, parts.flatten.count s = (amount rs s).toNat := by
  have hx : mapMM expandPair (rs.map enc) = .ok (rs.map (fun q : Int × String => List.replicate q.1.toNat q.2)) := by
    rw [mapMM_map]
    exact mapMM_eq_map (fun q _ => expandPair_enc q)
  refine ⟨_, hx, ?_⟩
  clear hx
  intro s
  induction rs with
  | nil => rfl
  | cons q rs ih =>
    rw [List.map_cons, List.nodup_cons] at h
    rw [List.map_cons, List.flatten_cons, List.count_append, ih h.2, List.count_replicate]
    unfold amount
    by_cases hs : q.2 = s
    · subst hs
      have h0 : rs.filter (fun x => decide (x.2 = q.2)) = [] := by
        rw [List.filter_eq_nil_iff]
        intro x hx hx2
        exact h.1 (List.mem_map.2 ⟨x, hx, by simpa using hx2⟩)
      rw [List.filter_cons_of_pos (by simp), h0]
      simp
    · rw [List.filter_cons_of_neg (by simpa using hs)]
      simp [hs]

/-- The entries of a configuration after normalisation, and what is made of them. -/
theorem lists_ok {types : List Py} {mins : List (List (Int × String))} (hm : List.Forall₂ Py.Lists types mins) :
    ∃ m els names, mapMM normalise types = .ok m ∧ expand m = .ok els ∧
      mapMM (mapMM PyConfig.nameOf) m = .ok names ∧
      List.Forall₂ (fun (es : List String) ps => ∀ s, es.count s = (amount ps s).toNat) els mins ∧
      List.Forall₂ (fun (ns : List String) ps => ∀ s, s ∈ ns ↔ s ∈ ps.map (·.2)) names mins := by
  induction hm with
  | nil => exact ⟨[], [], [], rfl, rfl, rfl, .nil, .nil⟩
  | cons h _ ih =>
    obtain ⟨m, els, names, i1, i2, i3, i4, i5⟩ := ih
    obtain ⟨qs, q1, q2, q3, q4⟩ := normalise_lists h
    obtain ⟨parts, p1, p2⟩ := expand_site qs q2
    refine ⟨qs.map enc :: m, parts.flatten :: els, qs.map (·.2) :: names, ?_, ?_, ?_, .cons ?_ i4, .cons ?_ i5⟩
    · rw [mapMM_cons, q1, ok_bind, i1]; rfl
    · unfold expand at i2 ⊢
      rw [mapMM_cons, p1, ok_bind, i2]; rfl
    · have hi : mapMM (fun q : Int × String => PyConfig.nameOf (enc q)) qs = .ok (qs.map (fun q => q.2)) :=
        mapMM_eq_map (fun q _ => rfl)
      rw [mapMM_cons, mapMM_map, hi, ok_bind, i3]
      rfl
    · intro s; rw [p2, q4]
    · intro s; rw [q3]

end BucketInput

namespace PyBucket
open BucketInput

/-- The entries after normalisation, and what is made of them. -/
theorem minimum_ok {minimum : List Py} {mins : List (List (Int × String))} (hm : List.Forall₂ Py.Lists minimum mins) :
    ∃ m again els, mapMM normalise minimum = .ok m ∧
      mapMM (fun t : List (List Py) => normalise (.lst (t.map .tup))) m = .ok again ∧ expand again = .ok els ∧
      List.Forall₂ (fun (es : List String) ps => ∀ s, es.count s = (amount ps s).toNat) els mins ∧
      ∃ names : List (List String), mapMM (mapMM (fun e => Py.item e 1)) again = .ok (names.map (·.map .str)) ∧
        List.Forall₂ (fun (ns : List String) ps => ∀ s, s ∈ ns ↔ s ∈ ps.map (·.2)) names mins := by
  induction hm with
  | nil => exact ⟨[], [], [], rfl, rfl, rfl, .nil, [], rfl, .nil⟩
  | cons h _ ih =>
    obtain ⟨m, again, els, i1, i2, i3, i4, names, i5, i6⟩ := ih
    obtain ⟨qs, q1, q2, q3, q4⟩ := normalise_lists h
    obtain ⟨rs, r1, r2, r3, r4⟩ := normalise_again qs
    obtain ⟨parts, p1, p2⟩ := expand_site rs r2
    refine ⟨qs.map enc :: m, rs.map enc :: again, parts.flatten :: els, ?_, ?_, ?_, .cons ?_ i4,
      rs.map (·.2) :: names, ?_, .cons ?_ i6⟩
    · rw [mapMM_cons, q1, ok_bind, i1]; rfl
    · rw [mapMM_cons, r1, ok_bind, i2]; rfl
    · unfold expand at i3 ⊢
      rw [mapMM_cons, p1, ok_bind, i3]; rfl
    · intro s; rw [p2, r4, q4]
    · have hi : mapMM (fun q : Int × String => Py.item (enc q) 1) rs = .ok (rs.map (fun q => Py.str q.2)) :=
        mapMM_eq_map (fun q _ => rfl)
      rw [mapMM_cons, i5, mapMM_map, hi, ok_bind, ok_bind, List.map_cons, List.map_map]
      rfl
    · intro s; rw [r3, q3]

/-! ### The update information -/

/-- The map of a list of pairs. -/
def infoOf (us : List (Int × String)) : List (String × Int) := us.foldl (fun m u => assign m u.2 u.1) []

theorem updateEntry_ok {t : Py} {us : List (Int × String)} (h : t.Sets us) : updateEntry t = .ok (infoOf us) := by
  have : ∀ (us : List (Int × String)) (m : List (String × Int)),
      loopM updateItem (us.map (fun u => .tup [.int u.1, .str u.2])) m = .ok (us.foldl (fun m u => assign m u.2 u.1) m) := by
    intro us
    induction us with
    | nil => intro m; rfl
    | cons u us ih =>
      intro m
      rw [List.map_cons, loopM_cons]
      exact ih _
  rcases h with rfl | rfl
  · exact this us []
  · exact this us []

theorem assign_keys (m : List (String × Int)) (s : String) (n : Int) (h : (m.map Prod.fst).Nodup) :
    ((assign m s n).map Prod.fst).Nodup ∧ ∀ t v, (t, v) ∈ assign m s n ↔ if t = s then v = n else (t, v) ∈ m := by
  unfold assign
  constructor
  · rw [List.map_append, List.nodup_append]
    refine ⟨?_, by simp, ?_⟩
    · exact (List.filter_sublist.map Prod.fst).nodup h
    · intro a ha b hb
      obtain ⟨e, he, rfl⟩ := List.mem_map.1 ha
      rw [List.map_singleton, List.mem_singleton] at hb
      have := (List.mem_filter.1 he).2
      rw [hb]
      simpa using this
  · intro t v
    rw [List.mem_append, List.mem_filter, List.mem_singleton]
    by_cases hts : t = s
    · simp [hts]
    · simp [hts]

theorem infoOf_spec (us : List (Int × String)) :
    ((infoOf us).map Prod.fst).Nodup ∧ (∀ s, s ∈ (infoOf us).map Prod.fst ↔ s ∈ us.map (·.2)) ∧
      ∀ s v, (s, v) ∈ infoOf us → v = change us s := by
  unfold infoOf
  induction us using List.reverseRecOn with
  | nil => exact ⟨by simp, by simp, by simp⟩
  | append_singleton us u ih =>
    obtain ⟨h1, h2, h3⟩ := ih
    rw [List.foldl_append]
    obtain ⟨a1, a2⟩ := assign_keys _ u.2 u.1 h1
    refine ⟨a1, ?_, ?_⟩
    · intro s
      have e : s ∈ (assign (us.foldl (fun m u => assign m u.2 u.1) []) u.2 u.1).map Prod.fst ↔
          s = u.2 ∨ s ∈ (us.foldl (fun m u => assign m u.2 u.1) []).map Prod.fst := by
        constructor
        · intro hs
          obtain ⟨⟨t, v⟩, ht, rfl⟩ := List.mem_map.1 hs
          rw [a2] at ht
          by_cases hts : t = u.2
          · exact .inl hts
          · rw [if_neg hts] at ht; exact .inr (List.mem_map_of_mem ht)
        · intro hs
          by_cases hts : s = u.2
          · exact List.mem_map.2 ⟨(s, u.1), (a2 _ _).2 (by rw [if_pos hts]), rfl⟩
          · obtain ⟨⟨t, v⟩, ht, rfl⟩ := List.mem_map.1 (hs.resolve_left hts)
            exact List.mem_map.2 ⟨(t, v), (a2 _ _).2 (by rw [if_neg hts]; exact ht), rfl⟩
      show s ∈ (assign _ _ _).map Prod.fst ↔ _
      rw [e, h2, List.map_append, List.mem_append, List.map_singleton, List.mem_singleton, or_comm]
    · intro s v hv
      have hv : (s, v) ∈ assign _ _ _ := hv
      rw [a2] at hv
      unfold change
      rw [List.filter_append]
      by_cases hs : s = u.2
      · rw [if_pos hs] at hv
        rw [List.filter_cons_of_pos (by simpa using hs.symm), List.filter_nil, List.getLast?_append]
        simpa using hv
      · rw [if_neg hs] at hv
        rw [List.filter_cons_of_neg (by simpa using fun e : u.2 = s => hs e.symm), List.filter_nil, List.append_nil]
        exact h3 s v hv

/-- The update bucket of a map with distinct known names. -/
theorem updateFromInfo_ok {pt : List (String × Nat)} (hpt : Numbering pt) : ∀ (m : List (String × Int)) (b : Bucket),
    b.length = pt.length → (m.map Prod.fst).Nodup → (∀ e ∈ m, e.1 ∈ pt.map Prod.fst) →
    ∃ b', loopM (fun (b : Bucket) (e : String × Int) => do
        let t ← Config.typeNumber pt e.1
        wr b t e.2) m b = .ok b' ∧ b'.length = pt.length ∧
      (∀ s i v, (s, i) ∈ pt → (s, v) ∈ m → b'[i]? = some v) ∧
      ∀ s i, (s, i) ∈ pt → s ∉ m.map Prod.fst → b'[i]? = b[i]?
  | [], b, hb, _, _ => ⟨b, rfl, hb, by simp, by simp⟩
  | e :: m, b, hb, hn, hk => by
    rw [List.map_cons, List.nodup_cons] at hn
    obtain ⟨t, h1, h2⟩ := Config.typeNumber_ok (hk e (by simp))
    have htl : t < b.length := by rw [hb]; exact hpt.lt h2
    obtain ⟨b', g1, g2, g3, g4⟩ := updateFromInfo_ok hpt m (b.set t e.2) (by simpa using hb) hn.2
      (fun f hf => hk f (by simp [hf]))
    refine ⟨b', ?_, g2, ?_, ?_⟩
    · rw [loopM_cons, h1, ok_bind, wr_of_lt htl, ok_bind]
      exact g1
    · intro s i v hs hv
      rcases List.mem_cons.1 hv with rfl | hv
      · rw [g4 s i hs hn.1]
        obtain rfl := hpt.fst_inj h2 hs
        rw [List.getElem?_set, if_pos rfl, if_pos htl]
      · exact g3 s i v hs hv
    · intro s i hs hne
      rw [List.map_cons, List.mem_cons, not_or] at hne
      rw [g4 s i hs hne.2, List.getElem?_set, if_neg]
      rintro rfl
      exact hne.1 (hpt.snd_inj hs h2)

end PyBucket

section
variable {K : Type _} [Field K] [LinearOrder K] [FloorRing K]

/-- The constructor of processes without move vectors goes through, and the entries are the given ones. -/
theorem mkProcess_noMoves {dist : Coord K → K} {first second : Config K} {info : List (List (String × Int))} {rate : K}
    {basis : List Nat} {number n nT : Nat} {us : List Bucket} (h1 : first.Good n nT) (hn : 0 < n)
    (hus : updateTypesOf first second info = .ok us) (hul : n ≤ us.length) :
    ∃ q, mkProcess dist first second info rate basis [] number = .ok q ∧ q.rate = rate ∧ q.basisSites = basis ∧
      q.number = number ∧ q.bucketProcess = decide (info.length ≠ 0) ∧ q.matchList.length = n ∧
      ∀ (i : Nat) (c : Coord K) (t u : Bucket), first.coords[i]? = some c → first.types[i]? = some t → us[i]? = some u →
        ∃ e ∈ q.matchList, e.coord = c ∧ e.matchTypes = t ∧ e.updateTypes = u ∧ e.hasMove = false := by
  have hc : 0 < first.coords.length := by rw [h1.shape.coords]; exact hn
  have hent : ∃ es, mapMM (entryOf dist first us first.coords[0]) (List.range first.elements.length) = .ok es := by
    apply mapMM_isOk
    intro i hi
    have hi : i < n := by rw [← h1.shape.elements]; exact List.mem_range.1 hi
    unfold entryOf
    rw [rd_of_lt (by rw [h1.shape.coords]; exact hi), ok_bind, rd_of_lt (by rw [h1.shape.types]; exact hi), ok_bind,
      rd_of_lt (by omega), ok_bind]
    exact ⟨_, rfl⟩
  obtain ⟨es, hes⟩ := hent
  have hel : es.length = n := by rw [mapMM_length hes, List.length_range, h1.shape.elements]
  unfold mkProcess
  rw [hus, ok_bind, rd_of_lt hc, ok_bind, hes, ok_bind]
  refine ⟨_, rfl, rfl, rfl, rfl, rfl, ?_, ?_⟩
  · show (sortP es).length = n
    rw [(perm_sortP es).length_eq, hel]
  · intro i c t u hic hit hiu
    have hi : i < n := by rw [← h1.shape.coords]; exact (List.getElem?_eq_some_iff.1 hic).1
    obtain ⟨e, e1, e2⟩ := mapMM_getElem? hes (i := i) (x := i) (by rw [List.getElem?_range (by rw [h1.shape.elements]; exact hi)])
    unfold entryOf at e2
    rw [rd_of_getElem? hic, ok_bind, rd_of_getElem? hit, ok_bind, rd_of_getElem? hiu, ok_bind] at e2
    have e2 := Except.ok.inj e2
    refine ⟨e, (perm_sortP es).mem_iff.2 (List.mem_of_getElem? e1), ?_, ?_, ?_, ?_⟩ <;> rw [← e2]

/-- With a calculator the process is the same but for its range and the caching of its rates. -/
theorem Calculator.process_of (rc : Option (Calculator K)) {dist : Coord K → K} {first second : Config K}
    {info : List (List (String × Int))} {rate : K} {basis : List Nat} {moves : List (Nat × Coord K)} {number : Nat} {q : Proc K}
    (h : mkProcess dist first second info rate basis moves number = .ok q) :
    ∃ q', Calculator.process rc dist first second info rate basis moves number = .ok q' ∧ q'.custom = rc.isSome ∧
      (∀ c, rc = some c → q'.cacheRate = (c.cacheRates && !decide (number ∈ c.exclude)) ∧ c.cutoff.getD 1 ≤ q'.cutoff) ∧
      q'.matchList = q.matchList ∧ q'.rate = q.rate ∧ q'.basisSites = q.basisSites ∧ q'.number = q.number ∧
      q'.bucketProcess = q.bucketProcess ∧ ∀ nT, q.WellFormed nT → q'.WellFormed nT := by
  cases rc with
  | none =>
    refine ⟨q, h, ?_, by simp, rfl, rfl, rfl, rfl, rfl, fun _ h => h⟩
    unfold mkProcess at h
    obtain ⟨_, _, h⟩ := bind_ok.1 h
    obtain ⟨_, _, h⟩ := bind_ok.1 h
    obtain ⟨_, _, h⟩ := bind_ok.1 h
    obtain ⟨_, _, h⟩ := bind_ok.1 h
    rw [← Except.ok.inj h]
    rfl
  | some c =>
    have hc : ∃ q', mkCustomProcess dist first second info rate basis (c.cutoff.getD 1) moves number
        (c.cacheRates && !decide (number ∈ c.exclude)) = .ok q' ∧ q'.custom = true ∧
        q'.cacheRate = (c.cacheRates && !decide (number ∈ c.exclude)) ∧ c.cutoff.getD 1 ≤ q'.cutoff ∧
        q'.matchList = q.matchList ∧ q'.rate = q.rate ∧ q'.basisSites = q.basisSites ∧ q'.number = q.number ∧
        q'.bucketProcess = q.bucketProcess := by
      unfold mkCustomProcess
      rw [h, ok_bind]
      refine ⟨_, rfl, rfl, rfl, ?_, rfl, rfl, rfl, rfl, rfl⟩
      show _ ≤ ite _ _ _
      split
      · exact le_refl _
      · exact not_lt.1 ‹_›
    obtain ⟨q', c1, c2, c3, c4, c5, c6, c7, c8, c9⟩ := hc
    refine ⟨q', c1, c2, ?_, c5, c6, c7, c8, c9, ?_⟩
    · intro c' hc'
      cases hc'
      exact ⟨c3, c4⟩
    · intro nT hw
      refine mkCustomProcess_core c1 ?_
      intro q'' h''
      rw [h] at h''
      cases h''
      exact hw

variable [IsStrictOrderedRing K]

/-- What the front end does not check of a bucket process: the input lists numbered particles `mins` and changes `ups`
for every place, some particle is required everywhere, the types are known, no wildcard is changed, and where
something changes the required particles are enough, something is left, and no wildcard is required. -/
structure BucketSound (pt : List (String × Nat)) (coords : List (Coord K)) (minimum update : List Py)
    (mins ups : List (List (Int × String))) : Prop where
  lists : List.Forall₂ Py.Lists minimum mins
  sets : List.Forall₂ Py.Sets update ups
  len : ups.length = coords.length
  some : ∀ ps ∈ mins, ∃ s, 0 < amount ps s
  known : ∀ ps ∈ mins, ∀ x ∈ ps, x.2 ∈ pt.map Prod.fst
  knownUpdate : ∀ us ∈ ups, ∀ x ∈ us, x.2 ∈ pt.map Prod.fst ∧ x.2 ≠ "*"
  enough : ∀ (k : Nat) (ps us : List (Int × String)), mins[k]? = .some ps → ups[k]? = .some us → (∃ s, change us s ≠ 0) →
    (∀ s, 0 ≤ max 0 (amount ps s) + change us s) ∧ (∃ s, 0 < max 0 (amount ps s) + change us s) ∧ amount ps "*" ≤ 0
  apart : coords.Pairwise Apart

theorem amount_unlisted {ps : List (Int × String)} {s : String} (h : s ∉ ps.map (·.2)) : amount ps s = 0 := by
  unfold amount
  rw [List.filter_eq_nil_iff.2, List.map_nil, List.sum_nil]
  intro x hx hx2
  exact h (List.mem_map.2 ⟨x, hx, by simpa using hx2⟩)

theorem change_unlisted {us : List (Int × String)} {s : String} (h : s ∉ us.map (·.2)) : change us s = 0 := by
  unfold change
  rw [List.filter_eq_nil_iff.2]
  · rfl
  · intro x hx hx2
    exact h (List.mem_map.2 ⟨x, hx, by simpa using hx2⟩)

/-- C51. The back end process of an accepted bucket process exists and is well formed when the input is sound. It
requires at every place exactly the particles listed, with equal types added up, changes exactly what the update says,
and keeps the rate and the basis sites that the lattice has. -/
theorem C51_bucket (coords : List (Coord K)) (minimum update : List Py) (basis : List Int) (rate : K) (p : PyBucket K)
    (h : PyBucket.make coords minimum update basis rate = .ok p) (rc : Option (Calculator K)) (dist : Coord K → K) (pt : List (String × Nat))
    (nBasis number : Nat) (hpt : Numbering pt) (h0 : ("*", 0) ∈ pt) (mins ups : List (List (Int × String)))
    (hs : BucketSound pt coords minimum update mins ups) :
    ∃ q, p.backend rc dist pt nBasis number = .ok q ∧ q.WellFormed pt.length ∧ q.bucketProcess = true ∧
      q.custom = rc.isSome ∧
      q.rate = rate ∧ 0 ≤ q.rate ∧
      q.basisSites = (basis.filter (fun b : Int => decide (b < (nBasis : Int)))).map Int.toNat ∧ q.number = number ∧
      q.matchList.length = coords.length ∧
      ∀ (k : Nat) (c c0 : Coord K) (ps us : List (Int × String)), coords[k]? = some c → coords[0]? = some c0 →
        mins[k]? = some ps → ups[k]? = some us → ∃ e ∈ q.matchList, e.coord = c - c0 ∧
          ∀ s i, (s, i) ∈ pt → e.matchTypes[i]? = some (max 0 (amount ps s)) ∧ e.updateTypes[i]? = some (change us s) := by
  obtain ⟨m, again, els, n1, n2, n3, n4, -⟩ := PyBucket.minimum_ok hs.lists
  cases coords with
  | nil => exact absurd h (by unfold PyBucket.make; intro h; cases h)
  | cons c0 rest =>
  set coords := c0 :: rest with hcoords
  unfold PyBucket.make at h
  have hcen : PyProc.centre coords = .ok (coords.map (fun x => x - c0)) := rfl
  rw [hcen, ok_bind] at h
  split at h
  · cases h
  rename_i hb
  split at h
  · cases h
  rename_i hr
  rw [n1, ok_bind] at h
  split at h
  · cases h
  rename_i hl
  rw [n2, ok_bind] at h
  obtain rfl := (Except.ok.inj h).symm
  have hlm : m.length = coords.length := by simpa using hl
  have hle : els.length = coords.length := by
    rw [← hlm, mapMM_length n1, hs.lists.length_eq, n4.length_eq]
  have hlmin : mins.length = coords.length := by rw [← n4.length_eq, hle]
  have hcen2 : PyProc.centre (coords.map (fun x => x - c0)) = .ok (coords.map (fun x => x - c0)) := by
    show Except.ok _ = _
    congr 1
    rw [List.map_map]
    apply List.map_congr_left
    intro x _
    ext
    · show x.x - c0.x - (c0.x - c0.x) = x.x - c0.x
      ring
    · show x.y - c0.y - (c0.y - c0.y) = x.y - c0.y
      ring
    · show x.z - c0.z - (c0.z - c0.z) = x.z - c0.z
      ring
  have hget : ∀ (k : Nat) (es : List String), els[k]? = some es → ∃ ps, mins[k]? = some ps ∧
      ∀ s, es.count s = (amount ps s).toNat := by
    intro k es hk
    obtain ⟨hk1, rfl⟩ := List.getElem?_eq_some_iff.1 hk
    have hk2 : k < mins.length := by omega
    exact ⟨mins[k], List.getElem?_eq_getElem hk2, (List.forall₂_iff_get.1 n4).2 k hk1 hk2⟩
  have hocc : Occupation pt coords.length els := by
    refine ⟨hle, ?_, ?_⟩
    · intro es hes
      obtain ⟨k, hk⟩ := List.mem_iff_getElem?.1 hes
      obtain ⟨ps, p1, p2⟩ := hget k es hk
      obtain ⟨s, hs'⟩ := hs.some ps (List.mem_of_getElem? p1)
      have : 0 < es.count s := by rw [p2]; omega
      exact List.ne_nil_of_mem (List.count_pos_iff.1 this)
    · intro es hes e he
      obtain ⟨k, hk⟩ := List.mem_iff_getElem?.1 hes
      obtain ⟨ps, p1, p2⟩ := hget k es hk
      have h1 := List.count_pos_iff.2 he
      rw [p2] at h1
      by_contra hne
      have : e ∉ ps.map (·.2) := by
        intro hm
        obtain ⟨x, hx, rfl⟩ := List.mem_map.1 hm
        exact hne (hs.known ps (List.mem_of_getElem? p1) x hx)
      rw [amount_unlisted this] at h1
      simp at h1
  obtain ⟨first, f1, f2, f3, f4, f6, -, -, f5, -⟩ := Config.mk'_ok hpt (coords := coords.map (fun x => x - c0))
    (n := coords.length) (by simp) hocc
  -- the required counts
  have hreq : ∀ (k : Nat) (t : Bucket) (ps : List (Int × String)), first.types[k]? = some t → mins[k]? = some ps →
      ∀ s i, (s, i) ∈ pt → t[i]? = some (max 0 (amount ps s)) := by
    intro k t ps ht hps s i hsi
    have hk : k < els.length := by rw [hle, ← f2.shape.types]; exact (List.getElem?_eq_some_iff.1 ht).1
    have he := List.getElem?_eq_getElem hk
    obtain ⟨ps', p1, p2⟩ := hget k _ he
    rw [hps] at p1
    obtain rfl := Option.some.inj p1
    rw [(f2.tallied k _ t (by rw [f4]; exact he) ht).2 i s ((f5 i s).2 hsi), p2]
    congr 1
    omega
  -- the changes
  have hinfo : mapMM PyBucket.updateEntry update = .ok (ups.map PyBucket.infoOf) := by
    rw [mapMM_ok_iff]
    have := hs.sets
    clear * - this
    induction this with
    | nil => exact .nil
    | cons h _ ih => exact .cons (PyBucket.updateEntry_ok h) ih
  have hup : ∀ us ∈ ups, ∃ b, updateFromInfo pt (PyBucket.infoOf us) = .ok b ∧ b.length = pt.length ∧
      ∀ s i, (s, i) ∈ pt → b[i]? = some (change us s) := by
    intro us hus
    obtain ⟨i1, i2, i3⟩ := PyBucket.infoOf_spec us
    obtain ⟨b, b1, b2, b3, b4⟩ := PyBucket.updateFromInfo_ok hpt (PyBucket.infoOf us) (Bucket.zeros pt.length)
      (by simp [Bucket.zeros]) i1 (by
        intro e he
        have := (i2 e.1).1 (List.mem_map_of_mem he)
        obtain ⟨x, hx, hxe⟩ := List.mem_map.1 this
        rw [← hxe]
        exact (hs.knownUpdate us hus x hx).1)
    refine ⟨b, b1, b2, ?_⟩
    intro s i hsi
    by_cases hm : s ∈ (PyBucket.infoOf us).map Prod.fst
    · obtain ⟨⟨s', v⟩, hv, rfl⟩ := List.mem_map.1 hm
      rw [b3 _ i v hsi hv, i3 _ _ hv]
    · rw [b4 s i hsi hm, change_unlisted (fun hh => hm ((i2 s).2 hh))]
      have := hpt.lt hsi
      simp only at this
      simp [Bucket.zeros, this]
  have hne : (ups.map PyBucket.infoOf).length ≠ 0 := by
    rw [List.length_map, hs.len, hcoords]; simp
  obtain ⟨us, hus⟩ : ∃ us, updateTypesOf first first (ups.map PyBucket.infoOf) = .ok us := by
    unfold updateTypesOf
    rw [if_pos hne, f6, mapMM_map]
    exact mapMM_isOk (fun u hu => (hup u hu).imp fun _ h => h.1)
  have husl : us.length = coords.length := by
    unfold updateTypesOf at hus
    rw [if_pos hne] at hus
    rw [mapMM_length hus, List.length_map, hs.len]
  have hchg : ∀ (k : Nat) (u : Bucket), us[k]? = some u → ∃ ch, ups[k]? = some ch ∧ u.length = pt.length ∧
      ∀ s i, (s, i) ∈ pt → u[i]? = some (change ch s) := by
    intro k u hk
    unfold updateTypesOf at hus
    rw [if_pos hne, f6, mapMM_map] at hus
    obtain ⟨ch, c1, c2⟩ := mapMM_getElem?' hus hk
    obtain ⟨b, b1, b2, b3⟩ := hup ch (List.mem_of_getElem? c1)
    rw [b1] at c2
    obtain rfl := Except.ok.inj c2
    exact ⟨ch, c1, b2, b3⟩
  obtain ⟨q, q1, q2, q3, q4, q5, q6, q7⟩ := mkProcess_noMoves (dist := dist) (second := first)
    (info := ups.map PyBucket.infoOf) (rate := rate)
    (basis := (basis.map Int.toNat).filter (fun b => decide (b < nBasis))) (number := number) f2 (by rw [hcoords]; simp)
    hus (by omega)
  have hname : ∀ i, i < pt.length → ∃ s, (s, i) ∈ pt := by
    intro i hi
    have : i < first.typeNames.length := by rw [f2.names]; exact hi
    exact ⟨_, (f5 i _).1 (List.getElem?_eq_getElem this)⟩
  have hchange : ∀ (k : Nat) (u : Bucket) (ch : List (Int × String)), us[k]? = some u → ups[k]? = some ch →
      (∃ v ∈ u, v ≠ 0) → ∃ s, change ch s ≠ 0 := by
    rintro k u ch hk hch ⟨v, hv, hv0⟩
    obtain ⟨ch', c1, c2, c3⟩ := hchg k u hk
    rw [hch] at c1
    obtain rfl := Option.some.inj c1
    obtain ⟨i, hi⟩ := List.mem_iff_getElem?.1 hv
    obtain ⟨s, hs'⟩ := hname i (by rw [← c2]; exact (List.getElem?_eq_some_iff.1 hi).1)
    rw [c3 s i hs', Option.some.injEq] at hi
    exact ⟨s, by rw [hi]; exact hv0⟩
  have hmins : ∀ (k : Nat) (t : Bucket), first.types[k]? = some t → ∃ ps, mins[k]? = some ps := by
    intro k t ht
    have : k < mins.length := by rw [hlmin, ← f2.shape.types]; exact (List.getElem?_eq_some_iff.1 ht).1
    exact ⟨_, List.getElem?_eq_getElem this⟩
  have hwf : q.WellFormed pt.length := by
    refine mkProcess_wellFormed' q1 hus ⟨f2.bucket, ?_, ?_, ?_, ?_, ?_, ?_⟩
    · intro u hu
      obtain ⟨k, hk⟩ := List.mem_iff_getElem?.1 hu
      exact (hchg k u hk).choose_spec.2.1
    · intro u hu
      obtain ⟨k, hk⟩ := List.mem_iff_getElem?.1 hu
      obtain ⟨ch, c1, c2, c3⟩ := hchg k u hk
      rw [c3 "*" 0 h0, change_unlisted]
      intro hm
      obtain ⟨x, hx, hxs⟩ := List.mem_map.1 hm
      exact (hs.knownUpdate ch (List.mem_of_getElem? c1) x hx).2 hxs
    · intro k t u ht hu hc i x v hx hv
      obtain ⟨ch, c1, c2, c3⟩ := hchg k u hu
      obtain ⟨ps, hps⟩ := hmins k t ht
      obtain ⟨s, hsi⟩ := hname i (by rw [← c2]; exact (List.getElem?_eq_some_iff.1 hv).1)
      rw [c3 s i hsi, Option.some.injEq] at hv
      rw [hreq k t ps ht hps s i hsi, Option.some.injEq] at hx
      rw [← hx, ← hv]
      exact (hs.enough k ps ch hps c1 (hchange k u ch hu c1 hc)).1 s
    · intro k t u ht hu hc
      obtain ⟨ch, c1, c2, c3⟩ := hchg k u hu
      obtain ⟨ps, hps⟩ := hmins k t ht
      obtain ⟨-, ⟨s, hs1⟩, -⟩ := hs.enough k ps ch hps c1 (hchange k u ch hu c1 hc)
      have hmem : s ∈ pt.map Prod.fst := by
        by_contra hne'
        have a1 : amount ps s = 0 := amount_unlisted (by
          intro hm
          obtain ⟨x, hx, rfl⟩ := List.mem_map.1 hm
          exact hne' (hs.known ps (List.mem_of_getElem? hps) x hx))
        have a2 : change ch s = 0 := change_unlisted (by
          intro hm
          obtain ⟨x, hx, rfl⟩ := List.mem_map.1 hm
          exact hne' (hs.knownUpdate ch (List.mem_of_getElem? c1) x hx).1)
        rw [a1, a2] at hs1
        simp at hs1
      obtain ⟨⟨s', i⟩, hsi, rfl⟩ := List.mem_map.1 hmem
      exact ⟨i, _, _, hreq k t ps ht hps _ i hsi, c3 _ i hsi, hs1⟩
    · intro i j c d u v hij hc hd _ _ _ _
      rw [f3, List.getElem?_map, Option.map_eq_some_iff] at hc hd
      obtain ⟨c', hc, rfl⟩ := hc
      obtain ⟨d', hd, rfl⟩ := hd
      obtain ⟨hi, rfl⟩ := List.getElem?_eq_some_iff.1 hc
      obtain ⟨hj, rfl⟩ := List.getElem?_eq_some_iff.1 hd
      have := List.pairwise_iff_getElem.1 hs.apart i j hi hj hij
      unfold Apart at this ⊢
      show 1 / 50000 < |coords[i].x - c0.x - (coords[j].x - c0.x)| ∨
        1 / 50000 < |coords[i].y - c0.y - (coords[j].y - c0.y)| ∨ 1 / 50000 < |coords[i].z - c0.z - (coords[j].z - c0.z)|
      simp only [sub_sub_sub_cancel_right]
      exact this
    · intro k t u ht hu hc hw
      have hc := hc.resolve_right (by simp)
      obtain ⟨ch, c1, c2, c3⟩ := hchg k u hu
      obtain ⟨ps, hps⟩ := hmins k t ht
      obtain ⟨-, -, hw'⟩ := hs.enough k ps ch hps c1 (hchange k u ch hu c1 hc)
      rw [hreq k t ps ht hps "*" 0 h0, Option.some.injEq] at hw
      omega
  obtain ⟨q', r1, r2, -, r4, r5, r6, r7, r8, r9⟩ := Calculator.process_of rc q1
  rw [← r5] at q2
  rw [← r6] at q3
  rw [← r7] at q4
  rw [← r8] at q5
  rw [← r4] at q6 q7
  refine ⟨q', ?_, r9 _ hwf, ?_, r2, q2, ?_, ?_, q4, q6, ?_⟩
  · unfold PyBucket.backend
    rw [hcen2, ok_bind, n3, ok_bind, f1, ok_bind, hinfo, ok_bind]
    exact r1
  · rw [q5]; simpa using hne
  · rw [q2]; exact not_lt.1 hr
  · rw [q3, List.filter_map]
    rw [not_or] at hb
    have hb := hb.2
    rw [List.any_eq_true, not_exists] at hb
    congr 1
    apply List.filter_congr
    intro b hbm
    have hb0 := hb b
    rw [not_and, decide_eq_true_eq] at hb0
    have hb0 := hb0 hbm
    simp only [Function.comp_apply, decide_eq_decide]
    omega
  · intro k c c0' ps ch hc hc0 hps hch
    obtain rfl : c0 = c0' := by rw [hcoords] at hc0; simpa using hc0
    have hk := (List.getElem?_eq_some_iff.1 hc).1
    have hkt : k < first.types.length := by rw [f2.shape.types]; exact hk
    have hku : k < us.length := by omega
    obtain ⟨e, e1, e2, e3, e4, -⟩ := q7 k (c - c0) _ _ (by rw [f3, List.getElem?_map, hc]; rfl)
      (List.getElem?_eq_getElem hkt) (List.getElem?_eq_getElem hku)
    refine ⟨e, e1, e2, ?_⟩
    intro s i hsi
    obtain ⟨ch', d1, d2, d3⟩ := hchg k _ (List.getElem?_eq_getElem hku)
    rw [hch] at d1
    obtain rfl := Option.some.inj d1
    rw [e3, e4]
    exact ⟨hreq k _ ps (List.getElem?_eq_getElem hkt) hps s i hsi, d3 s i hsi⟩

/-- C51. The same for processes of the other kind when there is a rate calculator. -/
theorem C51_custom (coords : List (Coord K)) (before after : List String) (moves : Option (List (Int × Coord K)))
    (basis : List Int) (rate : K) (p : PyProc K) (h : PyProc.make coords before after moves basis rate = .ok p)
    (rc : Option (Calculator K)) (dist : Coord K → K) (pt : List (String × Nat)) (nBasis number : Nat) (hpt : Numbering pt)
    (h0 : ("*", 0) ∈ pt) (hknown : ∀ e ∈ before ++ after, e ∈ pt.map Prod.fst) (hapart : coords.Pairwise Apart)
    (hwild : ∀ m ∈ p.moves, p.before[m.1]? ≠ some "*") :
    ∃ q, (PyProcess.plain p).backend rc dist pt nBasis number = .ok q ∧ q.WellFormed pt.length ∧ q.custom = rc.isSome ∧
      q.rate = rate ∧ 0 ≤ q.rate ∧
      q.basisSites = (basis.filter (fun b : Int => decide (b < (nBasis : Int)))).map Int.toNat ∧ q.number = number ∧
      (PyProcess.plain p).typesKnown pt = .ok true := by
  obtain ⟨q, q1, q2, q3, q4, q5, q6⟩ := C51_process coords before after moves basis rate p h dist pt nBasis number hpt h0
    hknown hapart hwild
  unfold PyProc.backend at q1
  split at q1
  · cases q1
  rename_i hk
  obtain ⟨cs, c1, q1⟩ := bind_ok.1 q1
  obtain ⟨first, c2, q1⟩ := bind_ok.1 q1
  obtain ⟨second, c3, q1⟩ := bind_ok.1 q1
  obtain ⟨q', r1, r2, -, r4, r5, r6, r7, r8, r9⟩ := Calculator.process_of rc q1
  refine ⟨q', ?_, r9 _ q2, r2, r5.trans q3, by rw [r5]; exact q4, r6.trans q5, r7.trans q6, ?_⟩
  · show (PyProc.centre p.coords >>= _) = _
    rw [c1, ok_bind, c2, ok_bind, c3, ok_bind]
    exact r1
  · show Except.ok _ = _
    congr 1
    simpa using hk

/-- The names of an accepted bucket process are known when those of its input are. -/
theorem PyBucket.typesKnown_of {coords : List (Coord K)} {minimum update : List Py} {basis : List Int} {rate : K}
    {p : PyBucket K} (h : PyBucket.make coords minimum update basis rate = .ok p) {pt : List (String × Nat)}
    {mins : List (List (Int × String))} (hl : List.Forall₂ Py.Lists minimum mins)
    (hk : ∀ ps ∈ mins, ∀ x ∈ ps, x.2 ∈ pt.map Prod.fst) : (PyProcess.bucket p).typesKnown pt = .ok true := by
  obtain ⟨m, again, els, n1, n2, -, -, names, n5, n6⟩ := PyBucket.minimum_ok hl
  unfold PyBucket.make at h
  obtain ⟨cs, -, h⟩ := bind_ok.1 h
  split at h
  · cases h
  split at h
  · cases h
  rw [n1, ok_bind] at h
  split at h
  · cases h
  rw [n2, ok_bind] at h
  obtain rfl := (Except.ok.inj h).symm
  show (PyBucket.presentTypes again >>= _) = _
  unfold PyBucket.presentTypes
  rw [mapMM_flatten, n5, ok_bind, ok_bind]
  show Except.ok _ = _
  congr 1
  rw [List.all_eq_true]
  intro e he
  obtain ⟨l, hl1, hl2⟩ := List.mem_flatten.1 he
  obtain ⟨ns, hns, rfl⟩ := List.mem_map.1 hl1
  obtain ⟨s, hs, rfl⟩ := List.mem_map.1 hl2
  obtain ⟨k, hkk⟩ := List.mem_iff_getElem?.1 hns
  obtain ⟨hk1, rfl⟩ := List.getElem?_eq_some_iff.1 hkk
  have hk2 : k < mins.length := by rw [← n6.length_eq]; exact hk1
  have := (List.forall₂_iff_get.1 n6).2 k hk1 hk2 s
  obtain ⟨x, hx, rfl⟩ := List.mem_map.1 (this.1 hs)
  exact decide_eq_true (hk _ (List.getElem_mem hk2) x hx)

/-- A process accepted by the front end whose back end process is well formed: `FrontProcess`, or a bucket
process made from sound input. -/
def FrontAny (pt : List (String × Nat)) : PyProcess K → Prop
  | .plain p => FrontProcess pt p
  | .bucket p => ∃ coords minimum update basis rate mins ups, PyBucket.make coords minimum update basis rate = .ok p ∧
      BucketSound pt coords minimum update mins ups

/-- The rate of a process. -/
def PyProcess.rate : PyProcess K → K
  | .plain p => p.rate
  | .bucket p => p.rate

/-- C51. A configuration and a list of processes of both kinds give a well formed model, with or without a rate
calculator. The processes are numbered in order and keep their rates; they use the calculator exactly when there is
one. -/
theorem C51_processes (P : PyLattice K) (els : List (List String)) (pt : List (String × Nat)) (hP : P.map.WF)
    (hnum : Numbering pt) (h0 : ("*", 0) ∈ pt) (hocc : Occupation pt P.sites.length els)
    (ps : List (PyProcess K)) (hne : ps ≠ []) (hps : ∀ p ∈ ps, FrontAny pt p) (rc : Option (Calculator K))
    (env : Env K) (hr : 0 < env.nRanks) (hL : env.L = P.map) :
    ∃ cfg qs, Config.mk' P.sites els pt = .ok cfg ∧
      PyProcess.interactions rc env.dist pt P.basis.length ps = .ok qs ∧
      WellFormed env P.sites.length pt.length cfg qs ∧ qs.length = ps.length ∧
      ∀ (i : Nat) (p : PyProcess K) (q : Proc K), ps[i]? = some p → qs[i]? = some q →
        q.number = i ∧ q.rate = p.rate ∧ q.custom = rc.isSome := by
  obtain ⟨cfg, m1, m2, -⟩ := Config.mk'_ok hnum (coords := P.sites) rfl hocc
  have hback : ∀ x ∈ ps.zipIdx, ∃ q, x.1.backend rc env.dist pt P.basis.length x.2 = .ok q ∧ q.WellFormed pt.length ∧
      q.number = x.2 ∧ q.rate = x.1.rate ∧ q.custom = rc.isSome ∧ x.1.typesKnown pt = .ok true := by
    intro x hx
    have hx' : x.1 ∈ ps := by
      obtain ⟨k, hk⟩ := List.mem_iff_getElem?.1 hx
      rw [List.getElem?_zipIdx, Option.map_eq_some_iff] at hk
      obtain ⟨a, ha, rfl⟩ := hk
      exact List.mem_of_getElem? ha
    have hf := hps x.1 hx'
    obtain ⟨p, i⟩ := x
    cases p with
    | plain p =>
      obtain ⟨coords, before, after, moves, basis, rate, a1, a2, a3, a4⟩ := hf
      obtain ⟨q, q1, q2, q3, q4, -, -, q7, q8⟩ := C51_custom coords before after moves basis rate p a1 rc env.dist pt
        P.basis.length i hnum h0 a2 a3 a4
      obtain ⟨_, _, _, _, _, _, _, _, _, _, _, _, _, e⟩ := C39_same_process _ _ _ _ _ _ _ a1
      exact ⟨q, q1, q2, q7, q4.trans e.symm, q3, q8⟩
    | bucket p =>
      obtain ⟨coords, minimum, update, basis, rate, mins, ups, a1, a2⟩ := hf
      obtain ⟨q, q1, q2, -, q3, q4, -, -, q7, -⟩ := C51_bucket coords minimum update basis rate p a1 rc env.dist pt
        P.basis.length i hnum h0 mins ups a2
      have e : p.rate = rate := by
        unfold PyBucket.make at a1
        obtain ⟨cs, -, a1⟩ := bind_ok.1 a1
        split at a1
        · cases a1
        split at a1
        · cases a1
        obtain ⟨_, -, a1⟩ := bind_ok.1 a1
        split at a1
        · cases a1
        obtain ⟨_, -, a1⟩ := bind_ok.1 a1
        rw [← Except.ok.inj a1]
      exact ⟨q, q1, q2, q7, q4.trans e.symm, q3, PyBucket.typesKnown_of a1 a2.lists a2.known⟩
  obtain ⟨qs, hqs⟩ := mapMM_isOk (fun x hx => (hback x hx).imp fun _ hq => hq.1)
  have hok : mapMM (PyProcess.typesKnown pt) ps = .ok (ps.map (fun _ => true)) := by
    apply mapMM_eq_map
    intro p hp
    obtain ⟨k, hk⟩ := List.mem_iff_getElem?.1 hp
    have hz : ps.zipIdx[k]? = some (p, k) := by rw [List.getElem?_zipIdx, hk]; simp
    obtain ⟨q, -, -, -, -, -, hh⟩ := hback _ (List.mem_of_getElem? hz)
    exact hh
  refine ⟨cfg, qs, m1, ?_, ⟨hr, List.length_pos_iff.2 hnum.some, by rw [hL]; exact hP, by rw [hL, ← P.length_sites],
    m2, ?_⟩, by rw [mapMM_length hqs, List.length_zipIdx], ?_⟩
  · unfold PyProcess.interactions
    rw [if_neg (by simpa using hne), hok, ok_bind, if_neg (by simp)]
    exact hqs
  · intro q hq
    obtain ⟨k, hk⟩ := List.mem_iff_getElem?.1 hq
    obtain ⟨x, hx, hxq⟩ := mapMM_getElem?' hqs hk
    obtain ⟨q', b1, b2, -⟩ := hback x (List.mem_of_getElem? hx)
    have hxq : x.1.backend rc env.dist pt P.basis.length x.2 = .ok q := hxq
    rw [b1] at hxq
    obtain rfl := Except.ok.inj hxq
    exact b2
  · intro i p q hp hq
    have hz : ps.zipIdx[i]? = some (p, i) := by rw [List.getElem?_zipIdx, hp]; simp
    obtain ⟨q', b1, b2⟩ := mapMM_getElem? hqs hz
    obtain ⟨q'', c1, -, c2, c3, c4, -⟩ := hback _ (List.mem_of_getElem? hz)
    rw [hq] at b1
    obtain rfl := Option.some.inj b1
    have c1 : p.backend rc env.dist pt P.basis.length i = .ok q'' := c1
    have b2 : p.backend rc env.dist pt P.basis.length i = .ok q := b2
    rw [c1] at b2
    obtain rfl := Except.ok.inj b2
    exact ⟨c2, c3, c4⟩

/-- C36. Bucket input with one entry per site, each listing a positive amount of something, is accepted when its
names are allowed, and the back end gets exactly the particles listed. -/
theorem C36_buckets (P : PyLattice K) (types : List Py) (possible : Option (List String)) (mins : List (List (Int × String)))
    (hp : ∀ l, possible = some l → l.Nodup) (hf : PyConfig.detect types = .ok .buckets)
    (hl : List.Forall₂ Py.Lists types mins) (hlen : types.length = P.sites.length) (hs : ∀ ps ∈ mins, ∃ s, 0 < amount ps s)
    (hw : ∀ ps ∈ mins, ∀ x ∈ ps, x.2 ≠ "*") (hall : ∀ l, possible = some l → "*" ∉ l ∧ ∀ ps ∈ mins, ∀ x ∈ ps, x.2 ∈ l) :
    ∃ els pt, PyConfig.elements P types none possible = .ok (els, pt) ∧ Numbering pt ∧ ("*", 0) ∈ pt ∧
      Occupation pt P.sites.length els ∧
      ∀ (k : Nat) (ps : List (Int × String)), mins[k]? = some ps → ∃ es, els[k]? = some es ∧
        ∀ s, es.count s = (amount ps s).toNat := by
  obtain ⟨m, els, names, n1, n2, n3, n4, n5⟩ := BucketInput.lists_ok hl
  have hname : ∀ s ∈ names.flatten, ∃ ps ∈ mins, ∃ x ∈ ps, x.2 = s := by
    intro s hs
    obtain ⟨ns, h1, h2⟩ := List.mem_flatten.1 hs
    obtain ⟨k, hkk⟩ := List.mem_iff_getElem?.1 h1
    obtain ⟨hk1, rfl⟩ := List.getElem?_eq_some_iff.1 hkk
    have hk2 : k < mins.length := by rw [← n5.length_eq]; exact hk1
    obtain ⟨x, hx, hxs⟩ := List.mem_map.1 (((List.forall₂_iff_get.1 n5).2 k hk1 hk2 s).1 h2)
    exact ⟨_, List.getElem_mem hk2, x, hx, hxs⟩
  obtain ⟨pt, hpt⟩ : ∃ pt, PyConfig.possibleTypes names.flatten possible = .ok pt := by
    unfold PyConfig.possibleTypes PyConfig.possibleNames
    cases possible with
    | none =>
      rw [ok_bind, if_neg]
      · exact ⟨_, rfl⟩
      · unfold PyConfig.sortedSet
        rw [List.mem_insertionSort, List.mem_dedup]
        intro hm
        obtain ⟨ps, h1, x, h2, h3⟩ := hname _ hm
        exact hw ps h1 x h2 h3
    | some l =>
      obtain ⟨a1, a2⟩ := hall l rfl
      simp only
      rw [if_pos, ok_bind, if_neg a1]
      · exact ⟨_, rfl⟩
      · rw [List.all_eq_true]
        intro s hs
        obtain ⟨ps, h1, x, h2, rfl⟩ := hname s hs
        exact decide_eq_true (a2 ps h1 x h2)
  obtain ⟨c1, c2, c3, c4, -⟩ := C37_numbering_partial names.flatten possible pt hp hpt
  have hnum : Numbering pt := ⟨List.ne_nil_of_mem c3, c1, by
    have : pt.map Prod.snd = List.range pt.length := c2
    rw [this]⟩
  have hle : els.length = P.sites.length := by rw [n4.length_eq, ← hl.length_eq, hlen]
  refine ⟨els, pt, ?_, hnum, c3, ⟨hle, ?_, ?_⟩, ?_⟩
  · unfold PyConfig.elements
    rw [hf, ok_bind]
    show (PyConfig.bucketTypes types none >>= _) = _
    unfold PyConfig.bucketTypes
    rw [if_neg (by simp), n1, ok_bind, mapMM_flatten, n3, ok_bind, ok_bind, hpt, ok_bind, n2]
    rfl
  · intro es hes
    obtain ⟨k, hk⟩ := List.mem_iff_getElem?.1 hes
    obtain ⟨hk1, rfl⟩ := List.getElem?_eq_some_iff.1 hk
    have hk2 : k < mins.length := by rw [← n4.length_eq]; exact hk1
    obtain ⟨s, hs'⟩ := hs _ (List.getElem_mem hk2)
    have hc := (List.forall₂_iff_get.1 n4).2 k hk1 hk2 s
    simp only [List.get_eq_getElem] at hc
    have : 0 < els[k].count s := by rw [hc]; omega
    exact List.ne_nil_of_mem (List.count_pos_iff.1 this)
  · intro es hes e he
    obtain ⟨k, hk⟩ := List.mem_iff_getElem?.1 hes
    obtain ⟨hk1, rfl⟩ := List.getElem?_eq_some_iff.1 hk
    have hk2 : k < mins.length := by rw [← n4.length_eq]; exact hk1
    have hk3 : k < names.length := by rw [n5.length_eq]; exact hk2
    have hc := (List.forall₂_iff_get.1 n4).2 k hk1 hk2 e
    simp only [List.get_eq_getElem] at hc
    have h1 := List.count_pos_iff.2 he
    rw [hc] at h1
    have hm : e ∈ mins[k].map (·.2) := by
      by_contra hne
      rw [amount_unlisted hne] at h1
      simp at h1
    have := ((List.forall₂_iff_get.1 n5).2 k hk3 hk2 e).2 hm
    obtain ⟨j, -, hj⟩ := c4 e (List.mem_flatten.2 ⟨_, List.getElem_mem hk3, this⟩)
    exact List.mem_map.2 ⟨_, hj, rfl⟩
  · intro k ps hk
    obtain ⟨hk1, rfl⟩ := List.getElem?_eq_some_iff.1 hk
    have hk2 : k < els.length := by rw [n4.length_eq]; exact hk1
    exact ⟨_, List.getElem?_eq_getElem hk2, (List.forall₂_iff_get.1 n4).2 k hk2 hk1⟩

end
namespace Sample

/-- One of the A at a site goes to the next site. -/
def shift : List Py × List Py :=
  ([.tup [.int 2, .str "A"], .str "A"], [.lst [.tup [.int (-1), .str "A"]], .lst [.tup [.int 1, .str "A"]]])

theorem shift_sound : BucketSound (K := ℚ) [("*", 0), ("A", 1)] [⟨0, 0, 0⟩, ⟨1, 0, 0⟩] shift.1 shift.2
    [[(2, "A")], [(1, "A")]] [[(-1, "A")], [(1, "A")]] where
  lists := .cons ⟨(2, "A"), rfl, rfl⟩ (.cons ⟨(1, "A"), rfl, rfl⟩ .nil)
  sets := .cons (.inl rfl) (.cons (.inl rfl) .nil)
  len := rfl
  some := by
    intro ps hps
    refine ⟨"A", ?_⟩
    fin_cases hps <;> decide
  known := by decide
  knownUpdate := by decide
  enough := by
    intro k ps us hps hus _
    have hk := (List.getElem?_eq_some_iff.1 hps).1
    have : k = 0 ∨ k = 1 := by simp at hk; omega
    rcases this with rfl | rfl
    · cases hps; cases hus
      refine ⟨?_, ⟨"A", by decide⟩, by decide⟩
      intro s
      by_cases hs : s = "A"
      · subst hs; decide
      · rw [amount_unlisted (by simpa using hs), change_unlisted (by simpa using hs)]; decide
    · cases hps; cases hus
      refine ⟨?_, ⟨"A", by decide⟩, by decide⟩
      intro s
      by_cases hs : s = "A"
      · subst hs; decide
      · rw [amount_unlisted (by simpa using hs), change_unlisted (by simpa using hs)]; decide
  apart := by unfold Apart; decide +kernel

end Sample

/-- A ring of four sites given in bucket format, a bucket process, the exchange of A and B, and a rate calculator. -/
example : ∃ els pt p1 p2, PyConfig.elements (Sample.chain 4 true)
      [.lst [.str "A", .tup [.int 2, .str "A"]], .str "A", .lst [.str "B", .str "A"], .str "B"] none none = .ok (els, pt) ∧
    PyBucket.make (K := ℚ) [⟨0, 0, 0⟩, ⟨1, 0, 0⟩] Sample.shift.1 Sample.shift.2 [0] 3 = .ok p1 ∧
    PyProc.make (K := ℚ) [⟨0, 0, 0⟩, ⟨1, 0, 0⟩] ["A", "B"] ["B", "A"] none [0] 1 = .ok p2 ∧
    ∃ cfg qs, Config.mk' (Sample.chain 4 true).sites els pt = .ok cfg ∧
      PyProcess.interactions (some ⟨some 2, true, [1]⟩) Sample.dist1 pt 1 [.bucket p1, .plain p2] = .ok qs ∧
      WellFormed (Sample.env (Sample.chain 4 true)) 4 3 cfg qs := by
  obtain ⟨els, pt, h1, h2, h3, h4, -⟩ := C36_buckets (Sample.chain 4 true)
    [.lst [.str "A", .tup [.int 2, .str "A"]], .str "A", .lst [.str "B", .str "A"], .str "B"] none
    [[(1, "A"), (2, "A")], [(1, "A")], [(1, "B"), (1, "A")], [(1, "B")]] (by simp) (by decide +kernel)
    (.cons rfl (.cons ⟨(1, "A"), rfl, rfl⟩ (.cons rfl (.cons ⟨(1, "B"), rfl, rfl⟩ .nil)))) (by decide +kernel)
    (by
      intro ps hps
      fin_cases hps
      · exact ⟨"A", by decide⟩
      · exact ⟨"A", by decide⟩
      · exact ⟨"B", by decide⟩
      · exact ⟨"B", by decide⟩) (by decide) (by simp)
  have hpt : pt = [("*", 0), ("A", 1), ("B", 2)] := by
    have : (PyConfig.elements (Sample.chain 4 true) [.lst [.str "A", .tup [.int 2, .str "A"]], .str "A",
      .lst [.str "B", .str "A"], .str "B"] none none).map Prod.snd = .ok [("*", 0), ("A", 1), ("B", 2)] := by decide +kernel
    rw [h1] at this
    exact Except.ok.inj this
  subst hpt
  have hm : ∃ p2, PyProc.make (K := ℚ) [⟨0, 0, 0⟩, ⟨1, 0, 0⟩] ["A", "B"] ["B", "A"] none [0] 1 = .ok p2 ∧
      (∀ m ∈ p2.moves, p2.before[m.1]? ≠ some "*") :=
    ⟨⟨[⟨0, 0, 0⟩, ⟨1, 0, 0⟩], ["A", "B"], ["B", "A"], [(0, ⟨1, 0, 0⟩), (1, ⟨-1, 0, 0⟩)], [0], 1⟩, by decide +kernel,
      by decide +kernel⟩
  obtain ⟨p2, hp2, hw⟩ := hm
  have hp1 : PyBucket.make (K := ℚ) [⟨0, 0, 0⟩, ⟨1, 0, 0⟩] Sample.shift.1 Sample.shift.2 [0] 3 =
      .ok ⟨_, _, _, _, _⟩ := rfl
  have hs := Sample.shift_sound
  obtain ⟨cfg, qs, c1, c2, c3, -⟩ := C51_processes (Sample.chain 4 true) els [("*", 0), ("A", 1), ("B", 2)]
    (by decide +kernel) h2 h3 h4 [.bucket _, .plain p2] (by simp) (by
      intro p hp
      rw [List.mem_cons, List.mem_singleton] at hp
      rcases hp with rfl | rfl
      · exact ⟨_, _, _, _, _, _, _, hp1, ⟨hs.lists, hs.sets, hs.len, hs.some, by decide, by decide, hs.enough, hs.apart⟩⟩
      · exact ⟨_, _, _, _, _, _, hp2, by decide, hs.apart, hw⟩) (some ⟨some 2, true, [1]⟩)
    (Sample.env (Sample.chain 4 true)) (by decide) rfl
  exact ⟨els, _, _, p2, h1, hp1, hp2, cfg, qs, c1, c2, c3⟩

/-! ### What is accepted without a check -/

/-- C51. The update information is not checked against the places: when it is shorter, the constructor of the back end
process reads outside it. -/
theorem C51_short_update :
    ∃ p, PyBucket.make (K := ℚ) [⟨0, 0, 0⟩, ⟨1, 0, 0⟩] [.str "A", .str "A"] [.lst [.tup [.int 1, .str "A"]]] [0] 1 = .ok p ∧
      (p.backend none Sample.dist1 Sample.types 1 0).map (fun _ => ()) = .error .outOfBounds :=
  ⟨_, rfl, by decide +kernel⟩

/-- C51. A type in the update information that the configuration does not know is not noticed by the check of the types;
the back end then uses the end of its table of types. -/
theorem C51_unknown_update :
    ∃ p, PyBucket.make (K := ℚ) [⟨0, 0, 0⟩] [.str "A"] [.lst [.tup [.int 1, .str "D"]]] [0] 1 = .ok p ∧
      (PyProcess.bucket p).typesKnown Sample.types = .ok true ∧
      (p.backend none Sample.dist1 Sample.types 1 0).map (fun _ => ()) = .error .outOfBounds :=
  ⟨_, rfl, by decide +kernel, by decide +kernel⟩

/-- C51. A place at which no particle is required is accepted, and the back end then reads the first of no particles. -/
theorem C51_nothing_required :
    ∃ p, PyBucket.make (K := ℚ) [⟨0, 0, 0⟩] [.tup [.int 0, .str "A"]] [.lst [.tup [.int 1, .str "A"]]] [0] 1 = .ok p ∧
      (p.backend none Sample.dist1 Sample.types 1 0).map (fun _ => ()) = .error .outOfBounds :=
  ⟨_, rfl, by decide +kernel⟩

/-- C51. A bucket process without update information is not taken as a bucket process by the back end, and changes
nothing. -/
theorem C51_empty_update :
    ∃ p, PyBucket.make (K := ℚ) [⟨0, 0, 0⟩, ⟨1, 0, 0⟩] [.str "A", .str "A"] [] [0] 1 = .ok p ∧
      (p.backend none Sample.dist1 Sample.types 1 0).map (fun q => (q.bucketProcess, q.matchList.map (·.updateTypes))) =
        .ok (false, [[0, 0, 0, 0], [0, 0, 0, 0]]) :=
  ⟨_, rfl, by decide +kernel⟩

/-- C51. A type listed twice is added up in what is required, while in the update information the last number counts. -/
theorem C51_repeated_update :
    ∃ p, PyBucket.make (K := ℚ) [⟨0, 0, 0⟩] [.lst [.str "A", .str "A", .str "A"]]
        [.lst [.tup [.int (-1), .str "A"], .tup [.int (-1), .str "A"]]] [0] 1 = .ok p ∧
      (p.backend none Sample.dist1 Sample.types 1 0).map (fun q => q.matchList.map (fun e => (e.matchTypes, e.updateTypes))) =
        .ok [([0, 3, 0, 0], [0, -1, 0, 0])] :=
  ⟨_, rfl, by decide +kernel⟩

/-- C51. A process that takes the last particle of a site is accepted, and the step that does so reads the first of no
particles. -/
theorem C51_emptied_site :
    ∃ p, PyBucket.make (K := ℚ) [⟨0, 0, 0⟩, ⟨1, 0, 0⟩] [.str "A", .str "A"]
        [.lst [.tup [.int (-1), .str "A"]], .lst [.tup [.int 1, .str "A"]]] [0] 1 = .ok p ∧
      ∃ q, p.backend none Sample.dist1 Sample.types 1 0 = .ok q ∧
        (Sample.go (Sample.env Sample.ring) Sample.ring [["A"], ["A"], ["A"], ["A"]] (.ok [q]) []).map (fun _ => ()) = .ok () ∧
        (Sample.go (Sample.env Sample.ring) Sample.ring [["A"], ["A"], ["A"], ["A"]] (.ok [q]) [Sample.half]).map (fun _ => ()) =
          .error .outOfBounds := by
  have h : (PyBucket.make (K := ℚ) [⟨0, 0, 0⟩, ⟨1, 0, 0⟩] [.str "A", .str "A"]
      [.lst [.tup [.int (-1), .str "A"]], .lst [.tup [.int 1, .str "A"]]] [0] 1 >>= fun p =>
      p.backend none Sample.dist1 Sample.types 1 0 >>= fun q =>
      .ok ((Sample.go (Sample.env Sample.ring) Sample.ring [["A"], ["A"], ["A"], ["A"]] (.ok [q]) []).map (fun _ => ()),
        (Sample.go (Sample.env Sample.ring) Sample.ring [["A"], ["A"], ["A"], ["A"]] (.ok [q]) [Sample.half]).map (fun _ => ()))) =
      .ok (.ok (), .error .outOfBounds) := by decide +kernel
  obtain ⟨p, h1, h⟩ := bind_ok.1 h
  obtain ⟨q, h2, h⟩ := bind_ok.1 h
  have h := Except.ok.inj h
  exact ⟨p, h1, q, h2, (congrArg Prod.fst h :), (congrArg Prod.snd h :)⟩

end KMC

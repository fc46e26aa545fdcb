import Verif.Lemmas.Moves
import Verif.Lemmas.Construct
import Verif.Spec.Reverse

/-!
# Processes that undo each other, in the engine
-/

set_option linter.unusedSectionVars false

namespace KMC

variable {K : Type _} [Field K] [LinearOrder K]

theorem zipWith_add_neg : ∀ t u : List Int, t.length = u.length →
    List.zipWith (· + ·) (List.zipWith (· + ·) t u) (u.map (fun x => -x)) = t
  | [], [], _ => rfl
  | a :: t, b :: u, h => by
    rw [List.zipWith_cons_cons, List.map_cons, List.zipWith_cons_cons, zipWith_add_neg t u (by simpa using h)]
    congr 1
    omega

theorem zipWith_add_zero : ∀ t u : List Int, t.length = u.length → (∀ x ∈ u, x = 0) → List.zipWith (· + ·) t u = t
  | [], [], _, _ => rfl
  | a :: t, b :: u, h, h0 => by
    rw [List.zipWith_cons_cons, zipWith_add_zero t u (by simpa using h) (fun x hx => h0 x (by simp [hx])), h0 b (by simp),
      add_zero]

theorem PEntry.UndoneBy.iff_changes {e f : PEntry K} (h : e.UndoneBy f) : f.Changes ↔ e.Changes := by
  unfold PEntry.Changes
  rw [h.changes]
  constructor
  · rintro ⟨u, hu, h0⟩
    obtain ⟨v, hv, rfl⟩ := List.mem_map.1 hu
    exact ⟨v, hv, fun hv0 => h0 (by rw [hv0]; rfl)⟩
  · rintro ⟨u, hu, h0⟩
    exact ⟨-u, List.mem_map_of_mem hu, fun hv0 => h0 (by omega)⟩

theorem PEntry.UndoneBy.unchanged {e f : PEntry K} (h : e.UndoneBy f) (hl : e.matchTypes.length = e.updateTypes.length)
    (hc : ¬ e.Changes) : f.matchTypes = e.matchTypes := by
  rw [h.asks, zipWith_add_zero _ _ hl]
  intro x hx
  by_contra h0
  exact hc ⟨x, hx, h0⟩

theorem PEntry.UndoneBy.symm {e f : PEntry K} (h : e.UndoneBy f) (hl : e.matchTypes.length = e.updateTypes.length) :
    f.UndoneBy e := by
  refine ⟨h.distance.symm, h.coord.symm, ?_, ?_⟩
  · rw [h.asks, h.changes, zipWith_add_neg _ _ hl]
  · rw [h.changes, List.map_map]
    conv_lhs => rw [← List.map_id e.updateTypes]
    exact List.map_congr_left fun x _ => by simp

theorem samePoint_undone {e f : PEntry K} (h : e.UndoneBy f) (c : CEntry K) : samePoint f c = samePoint e c := by
  unfold samePoint
  rw [h.distance, h.coord]

theorem wildcardFor_undone (c : CEntry K) : (wildcardFor c).UndoneBy (wildcardFor c) := by
  refine ⟨rfl, rfl, ?_, ?_⟩
  · rw [zipWith_add_zero]
    · simp [wildcardFor, Bucket.zeros]
    · intro x hx
      simp [wildcardFor, Bucket.zeros] at hx
      exact hx.2
  · simp [wildcardFor, Bucket.zeros]

/-- The insertion of wildcards keeps the entries in correspondence. -/
theorem alignLoop_undone : ∀ {ps qs : List (PEntry K)} {cs : List (CEntry K)} {old new old' new' : Nat} {m m' : List Nat}
    {r r' : List (PEntry K) × List Nat × Nat}, List.Forall₂ PEntry.UndoneBy ps qs →
    Interactions.alignLoop ps cs old new m = .ok r → Interactions.alignLoop qs cs old' new' m' = .ok r' →
    List.Forall₂ PEntry.UndoneBy r.1 r'.1
  | [], _, cs, _, _, _, _, _, _, r, r', .nil, h1, h2 => by
    unfold Interactions.alignLoop at h1 h2
    rw [← Except.ok.inj h1, ← Except.ok.inj h2]
    exact .nil
  | p :: ps, q :: qs, [], _, _, _, _, _, _, r, r', .cons h hs, h1, h2 => by
    unfold Interactions.alignLoop at h1 h2
    rw [← Except.ok.inj h1, ← Except.ok.inj h2]
    exact .cons h hs
  | p :: ps, q :: qs, c :: cs, _, _, _, _, _, _, r, r', .cons h hs, h1, h2 => by
    unfold Interactions.alignLoop at h1 h2
    rw [samePoint_undone h] at h2
    split at h1
    · next hn =>
      rw [if_pos hn] at h2
      obtain ⟨w, e1, h1⟩ := bind_ok.1 h1
      obtain ⟨r1, e2, h1⟩ := bind_ok.1 h1
      obtain ⟨w', f1, h2⟩ := bind_ok.1 h2
      obtain ⟨r2, f2, h2⟩ := bind_ok.1 h2
      rw [← Except.ok.inj h1, ← Except.ok.inj h2]
      rw [(initWildcard_eq e1).1, (initWildcard_eq f1).1]
      exact .cons (wildcardFor_undone c) (alignLoop_undone (.cons h hs) e2 f2)
    · next hn =>
      rw [if_neg hn] at h2
      obtain ⟨m1, e1, h1⟩ := bind_ok.1 h1
      obtain ⟨r1, e2, h1⟩ := bind_ok.1 h1
      obtain ⟨m2, f1, h2⟩ := bind_ok.1 h2
      obtain ⟨r2, f2, h2⟩ := bind_ok.1 h2
      rw [← Except.ok.inj h1, ← Except.ok.inj h2]
      exact .cons h (alignLoop_undone hs e2 f2)

theorem updateMatchListOf_undone {cfg : Config K} {L : LatticeMap} {p q p1 q1 : Proc K} (h : p.UndoneBy q)
    (hp : Interactions.updateMatchListOf cfg L p = .ok p1) (hq : Interactions.updateMatchListOf cfg L q = .ok q1) :
    List.Forall₂ PEntry.UndoneBy p1.matchList q1.matchList := by
  unfold Interactions.updateMatchListOf at hp hq
  rw [h.basis] at hq
  rcases hb : p.basisSites with _ | ⟨b, _ | ⟨b', bs⟩⟩
  case cons.nil =>
    rw [hb] at hp hq
    obtain ⟨idx, a1, hp⟩ := bind_ok.1 hp
    obtain ⟨cml, a2, hp⟩ := bind_ok.1 hp
    obtain ⟨r, a3, hp⟩ := bind_ok.1 hp
    dsimp only at hp
    obtain ⟨ids, -, hp⟩ := bind_ok.1 hp
    obtain ⟨idx', b1, hq⟩ := bind_ok.1 hq
    rw [a1] at b1
    obtain rfl := Except.ok.inj b1
    obtain ⟨cml', b2, hq⟩ := bind_ok.1 hq
    rw [a2] at b2
    obtain rfl := Except.ok.inj b2
    obtain ⟨r', b3, hq⟩ := bind_ok.1 hq
    dsimp only at hq
    obtain ⟨ids', -, hq⟩ := bind_ok.1 hq
    rw [← Except.ok.inj hp, ← Except.ok.inj hq]
    exact alignLoop_undone h.entries a3 b3
  all_goals
    rw [hb] at hp hq
    rw [← Except.ok.inj hp, ← Except.ok.inj hq]
    exact h.entries

section
variable [IsStrictOrderedRing K]
variable {env : Env K} {n nT : Nat} {cfg cfg1 : Config K} {procs procs1 : List (Proc K)}

theorem prepared_undone (hp : Prepared env cfg procs cfg1 procs1) {j j' : Nat} {p q p1 q1 : Proc K}
    (hj : procs[j]? = some p) (hj' : procs[j']? = some q) (h : p.UndoneBy q) (h1 : procs1[j]? = some p1)
    (h2 : procs1[j']? = some q1) : List.Forall₂ PEntry.UndoneBy p1.matchList q1.matchList := by
  obtain ⟨e1, e2⟩ := hp
  have hc : (Interactions.clearMatching procs)[j]? = some p.clearSites := by
    unfold Interactions.clearMatching
    rw [List.getElem?_map, hj]; rfl
  have hc' : (Interactions.clearMatching procs)[j']? = some q.clearSites := by
    unfold Interactions.clearMatching
    rw [List.getElem?_map, hj']; rfl
  have hu : p.clearSites.UndoneBy q.clearSites := ⟨h.entries, h.basis⟩
  unfold Interactions.updateProcessMatchLists at e2
  split at e2
  · obtain rfl := Except.ok.inj e2
    rw [hc] at h1
    rw [hc'] at h2
    rw [← Option.some.inj h1, ← Option.some.inj h2]
    exact h.entries
  · obtain ⟨a, a1, a2⟩ := mapMM_getElem?' e2 h1
    obtain ⟨b, b1, b2⟩ := mapMM_getElem?' e2 h2
    rw [hc] at a1
    rw [hc'] at b1
    rw [← Option.some.inj a1] at a2
    rw [← Option.some.inj b1] at b2
    exact updateMatchListOf_undone hu a2 b2

/-- The processes of a state are in correspondence. -/
theorem World.undone (hp : Prepared env cfg procs cfg1 procs1) {range : Nat} {ms ms' : MState K}
    (hI : (World.of env n nT range cfg1 procs1).Inv ms) (hI' : (World.of env n nT range cfg1 procs1).Inv ms')
    {j j' : Nat} {p0 q0 p q : Proc K} (hj : procs[j]? = some p0) (hj' : procs[j']? = some q0) (h : p0.UndoneBy q0)
    (h1 : ms.procs[j]? = some p) (h2 : ms'.procs[j']? = some q) :
    List.Forall₂ PEntry.UndoneBy p.matchList q.matchList := by
  obtain ⟨A, hI⟩ := hI
  obtain ⟨A', hI'⟩ := hI'
  have e1 : (procs1.map Proc.still)[j]? = some p.still := hI.proc h1
  have e2 : (procs1.map Proc.still)[j']? = some q.still := hI'.proc h2
  rw [List.getElem?_map, Option.map_eq_some_iff] at e1 e2
  obtain ⟨p1, e1, f1⟩ := e1
  obtain ⟨q1, e2, f2⟩ := e2
  have g1 : p1.matchList = p.matchList := by have h := congrArg Proc.matchList f1; exact h
  have g2 : q1.matchList = q.matchList := by have h := congrArg Proc.matchList f2; exact h
  rw [← g1, ← g2]
  exact prepared_undone hp hj hj' h e1 e2

/-- Distinct places stay distinct when wildcards are inserted. -/
theorem Proc.From.distinct {p q : Proc K} (h : p.From q) (hd : p.Distinct) (hq : ∀ e ∈ q.matchList, e.matchTypes ≠ []) :
    q.Distinct := by
  have h1 : (p.matchList.filter (fun e => decide (¬ e.Wild ∧ e.matchTypes ≠ []))).Pairwise
      (fun e f => Apart e.coord f.coord) := by
    rw [List.pairwise_filter]
    refine hd.imp ?_
    intro e f hef he hf
    exact hef (of_decide_eq_true he).1 (of_decide_eq_true hf).1
  rw [← h.keep, List.pairwise_filter] at h1
  · refine List.Pairwise.imp_of_mem ?_ h1
    intro e f he hf hef we wf
    exact hef (decide_eq_true ⟨we, hq e he⟩) (decide_eq_true ⟨wf, hq f hf⟩)
  · intro c
    rw [decide_eq_false_iff_not]
    rintro ⟨h2, h3⟩
    apply h2
    unfold PEntry.Wild
    unfold wildcardFor at h3 ⊢
    dsimp only at h3 ⊢
    cases hc : c.matchTypes with
    | nil => rw [hc] at h3; exact absurd rfl h3
    | cons a l => rfl

theorem apart_symm {c d : Coord K} (h : Apart c d) : Apart d c := by
  unfold Apart at h ⊢
  rw [abs_sub_comm d.x, abs_sub_comm d.y, abs_sub_comm d.z]
  exact h

theorem Proc.Distinct.ne {p : Proc K} (h : p.Distinct) {i k : Nat} {e f : PEntry K} (hi : p.matchList[i]? = some e)
    (hk : p.matchList[k]? = some f) (hik : i ≠ k) (he : ¬ e.Wild) (hf : ¬ f.Wild) : Apart e.coord f.coord := by
  unfold Proc.Distinct at h
  rw [List.pairwise_iff_getElem] at h
  obtain ⟨li, rfl⟩ := List.getElem?_eq_some_iff.1 hi
  obtain ⟨lk, rfl⟩ := List.getElem?_eq_some_iff.1 hk
  rcases Nat.lt_or_gt_of_ne hik with hlt | hlt
  · exact h i k li lk hlt he hf
  · exact apart_symm (h k i lk li hlt hf he)

/-- What an event does to the types, position by position. -/
structure Took (ps : List (PEntry K)) (sk : List (CEntry K)) (types types' : List Bucket) : Prop where
  changed : ∀ (k : Nat) (e : PEntry K) (c : CEntry K), ps[k]? = some e → sk[k]? = some c → e.Changes →
    ∃ t, types[c.index]? = some t ∧ types'[c.index]? = some (List.zipWith (· + ·) t e.updateTypes)
  kept : ∀ i, (∀ (k : Nat) (e : PEntry K) (c : CEntry K), ps[k]? = some e → sk[k]? = some c → e.Changes → c.index ≠ i) →
    types'[i]? = types[i]?

theorem fits_positions {ps : List (PEntry K)} {l : List (CEntry K)} :
    (∃ l1 l2, l = l1 ++ l2 ∧ List.Forall₂ Fits ps l1) ↔
      ∀ (k : Nat) (e : PEntry K), ps[k]? = some e → ∃ c, l[k]? = some c ∧ Fits e c := by
  induction ps generalizing l with
  | nil => exact ⟨fun _ k e h => by simp at h, fun _ => ⟨[], l, rfl, .nil⟩⟩
  | cons p ps ih =>
    constructor
    · rintro ⟨l1, l2, rfl, hf⟩
      cases hf with
      | cons h hs =>
        rename_i c l1
        intro k e hk
        cases k with
        | zero =>
          obtain rfl := Option.some.inj hk
          exact ⟨c, rfl, h⟩
        | succ k => exact ih.1 ⟨l1, l2, rfl, hs⟩ k e hk
    · intro h
      obtain ⟨c, hc, hf⟩ := h 0 p rfl
      cases l with
      | nil => cases hc
      | cons c' l =>
        obtain rfl := Option.some.inj hc
        obtain ⟨l1, l2, rfl, hl⟩ := ih.2 (fun k e hk => h (k + 1) e hk)
        exact ⟨c' :: l1, l2, rfl, .cons hf hl⟩

/-- After an event the reverse process fits. -/
theorem fits_undone {types types' : List Bucket} {sk : List (CEntry K)} {p : Proc K} {qs : List (PEntry K)}
    (hu : List.Forall₂ PEntry.UndoneBy p.matchList qs)
    (hsame : ∀ e ∈ sk, ∀ e' ∈ sk, e.index = e'.index → e.coord = e'.coord ∧ e.distance = e'.distance)
    (hd : p.Distinct) (hw : ∀ e ∈ p.matchList, e.Changes → ¬ e.Wild)
    (hl : ∀ e ∈ p.matchList, e.matchTypes.length = e.updateTypes.length)
    (ht : Took p.matchList sk types types')
    (hf : ∃ l1 l2, seen types sk = l1 ++ l2 ∧ List.Forall₂ Fits p.matchList l1) :
    ∃ l1 l2, seen types' sk = l1 ++ l2 ∧ List.Forall₂ Fits qs l1 := by
  rw [fits_positions] at hf ⊢
  intro k f hk
  have hlen := hu.length_eq
  obtain ⟨hkq, rfl⟩ := List.getElem?_eq_some_iff.1 hk
  have hkp : k < p.matchList.length := by omega
  have hke : p.matchList[k]? = some p.matchList[k] := List.getElem?_eq_getElem hkp
  have hef : p.matchList[k].UndoneBy qs[k] := by
    have := (List.forall₂_iff_get.1 hu).2 k hkp hkq
    simpa using this
  generalize p.matchList[k] = e at hke hef
  have hem := List.mem_of_getElem? hke
  obtain ⟨c0, hc0, hfit⟩ := hf k e hke
  unfold seen at hc0
  rw [List.getElem?_map, Option.map_eq_some_iff] at hc0
  obtain ⟨c, hc, rfl⟩ := hc0
  refine ⟨c.look types', by unfold seen; rw [List.getElem?_map, hc]; rfl, ?_⟩
  by_cases hch : e.Changes
  · obtain ⟨t, h1, h2⟩ := ht.changed k e c hke hc hch
    rcases hfit with hwild | ⟨hpt, hcount⟩
    · exact absurd hwild (hw e hem hch)
    · refine .inr ⟨?_, ?_⟩
      · rw [samePoint_undone hef]; exact hpt
      · intro i x y hx hy
        have e1 : (c.look types').matchTypes = List.zipWith (· + ·) t e.updateTypes := by
          unfold CEntry.look
          rw [List.getD_eq_getElem?_getD, h2]; rfl
        have e2 : (c.look types).matchTypes = t := by
          unfold CEntry.look
          rw [List.getD_eq_getElem?_getD, h1]; rfl
        rw [e1, List.getElem?_zipWith_eq_some] at hy
        rw [hef.asks, List.getElem?_zipWith_eq_some] at hx
        obtain ⟨y1, u1, hy1, hu1, rfl⟩ := hy
        obtain ⟨x1, u2, hx1, hu2, rfl⟩ := hx
        rw [hu1] at hu2
        obtain rfl := Option.some.inj hu2
        have := hcount i x1 y1 hx1 (by rw [e2]; exact hy1)
        omega
  · have hmt := hef.unchanged (hl e hem) hch
    by_cases hwild : e.Wild
    · left
      unfold PEntry.Wild at hwild ⊢
      rw [hmt]; exact hwild
    · rcases hfit with h1 | ⟨hpt, hcount⟩
      · exact absurd h1 hwild
      · have hk0 : types'[c.index]? = types[c.index]? := by
          apply ht.kept
          intro k' e' c' hk' hc' hch' hidx
          have hne : k ≠ k' := by
            rintro rfl
            rw [hke] at hk'
            obtain rfl := Option.some.inj hk'
            exact hch hch'
          obtain ⟨c0, hc0, hfit'⟩ := hf k' e' hk'
          unfold seen at hc0
          rw [List.getElem?_map, Option.map_eq_some_iff] at hc0
          obtain ⟨c1, hc1, rfl⟩ := hc0
          rw [hc'] at hc1
          obtain rfl := Option.some.inj hc1
          have hw' := hw e' (List.mem_of_getElem? hk') hch'
          rcases hfit' with h1 | ⟨hpt', -⟩
          · exact hw' h1
          · obtain ⟨g1, g2⟩ := hsame c' (List.mem_of_getElem? hc') c (List.mem_of_getElem? hc) hidx
            refine not_apart hpt ?_ (hd.ne hke hk' hne hwild hw')
            rw [samePoint_look] at hpt' ⊢
            unfold samePoint at hpt' ⊢
            rw [← g1, ← g2]
            exact hpt'
        refine .inr ⟨by rw [samePoint_undone hef]; exact hpt, ?_⟩
        intro i x y hx hy
        rw [hmt] at hx
        refine hcount i x y hx ?_
        unfold CEntry.look at hy ⊢
        rw [List.getD_eq_getElem?_getD, hk0] at hy
        rw [List.getD_eq_getElem?_getD]
        exact hy

/-- The reverse process takes the types back. -/
theorem took_back {types types' types'' : List Bucket} {sk : List (CEntry K)} {ps qs : List (PEntry K)} {nT : Nat}
    (hu : List.Forall₂ PEntry.UndoneBy ps qs) (hl : ∀ e ∈ ps, e.updateTypes.length = nT)
    (ht : ∀ t ∈ types, t.length = nT)
    (h : Took ps sk types types') (h' : Took qs sk types' types'') : types'' = types := by
  have hpq : ∀ (k : Nat) (e : PEntry K), ps[k]? = some e → ∃ f, qs[k]? = some f ∧ e.UndoneBy f := by
    intro k e hk
    obtain ⟨hkp, rfl⟩ := List.getElem?_eq_some_iff.1 hk
    have hkq : k < qs.length := by rw [← hu.length_eq]; exact hkp
    exact ⟨_, List.getElem?_eq_getElem hkq, by simpa using (List.forall₂_iff_get.1 hu).2 k hkp hkq⟩
  have hqp : ∀ (k : Nat) (f : PEntry K), qs[k]? = some f → ∃ e, ps[k]? = some e ∧ e.UndoneBy f := by
    intro k e hk
    obtain ⟨hkq, rfl⟩ := List.getElem?_eq_some_iff.1 hk
    have hkp : k < ps.length := by rw [hu.length_eq]; exact hkq
    exact ⟨_, List.getElem?_eq_getElem hkp, by simpa using (List.forall₂_iff_get.1 hu).2 k hkp hkq⟩
  apply List.ext_getElem?
  intro i
  by_cases hi : ∃ (k : Nat) (e : PEntry K) (c : CEntry K), ps[k]? = some e ∧ sk[k]? = some c ∧ e.Changes ∧ c.index = i
  · obtain ⟨k, e, c, hk, hc, hch, rfl⟩ := hi
    obtain ⟨f, hf, hef⟩ := hpq k e hk
    obtain ⟨t, h1, h2⟩ := h.changed k e c hk hc hch
    obtain ⟨t', h3, h4⟩ := h'.changed k f c hf hc (hef.iff_changes.2 hch)
    rw [h2] at h3
    rw [h4, h1, ← Option.some.inj h3, hef.changes, zipWith_add_neg]
    rw [ht t (List.mem_of_getElem? h1), hl e (List.mem_of_getElem? hk)]
  · rw [h'.kept i, h.kept i]
    · intro k e c hk hc hch hidx
      exact hi ⟨k, e, c, hk, hc, hch, hidx⟩
    · intro k f c hk hc hch hidx
      obtain ⟨e, he, hef⟩ := hqp k f hk
      exact hi ⟨k, e, c, he, hc, hef.iff_changes.1 hch, hidx⟩

end

/-! ### The constructor -/

theorem bucketDiff_back : ∀ (b a d : Bucket), b.length = a.length → bucketDiff b a = .ok d →
    List.zipWith (· + ·) a d = b ∧ bucketDiff a b = .ok (d.map (fun x => -x))
  | [], [], d, _, h => by cases h; exact ⟨rfl, rfl⟩
  | [], _ :: _, _, h, _ => by simp at h
  | _ :: _, [], _, h, _ => by simp at h
  | y :: b, x :: a, d, h, hd => by
    unfold bucketDiff at hd
    obtain ⟨r, hr, hd⟩ := bind_ok.1 hd
    obtain rfl := Except.ok.inj hd
    obtain ⟨h1, h2⟩ := bucketDiff_back b a r (by simpa using h) hr
    refine ⟨?_, ?_⟩
    · rw [List.zipWith_cons_cons, h1]
      congr 1
      omega
    · unfold bucketDiff
      rw [h2, ok_bind, List.map_cons]
      show Except.ok ((x - y) :: _) = _
      congr 2
      omega

theorem forall₂_orderedInsert {α : Type _} {R : α → α → Prop} (le : α → α → Prop) [DecidableRel le]
    (hle : ∀ {a a' b b'}, R a a' → R b b' → (le a b ↔ le a' b')) {a a' : α} (ha : R a a') :
    ∀ {l l' : List α}, List.Forall₂ R l l' → List.Forall₂ R (l.orderedInsert le a) (l'.orderedInsert le a')
  | [], [], .nil => .cons ha .nil
  | b :: l, b' :: l', .cons hb hl => by
    rw [List.orderedInsert_cons, List.orderedInsert_cons]
    by_cases h : le a b
    · rw [if_pos h, if_pos ((hle ha hb).1 h)]
      exact .cons ha (.cons hb hl)
    · rw [if_neg h, if_neg (fun h' => h ((hle ha hb).2 h'))]
      exact .cons hb (forall₂_orderedInsert le hle ha hl)

theorem forall₂_insertionSort {α : Type _} {R : α → α → Prop} (le : α → α → Prop) [DecidableRel le]
    (hle : ∀ {a a' b b'}, R a a' → R b b' → (le a b ↔ le a' b')) :
    ∀ {l l' : List α}, List.Forall₂ R l l' → List.Forall₂ R (l.insertionSort le) (l'.insertionSort le)
  | [], [], .nil => .nil
  | _ :: _, _ :: _, .cons ha hl => forall₂_orderedInsert le hle ha (forall₂_insertionSort le hle hl)

section
variable [IsStrictOrderedRing K] [FloorRing K]

/-- The match list of a process, place by place. -/
theorem mkProcess_places {dist : Coord K → K} {first second : Config K} {rate : K} {basis : List Nat}
    {moves : List (Nat × Coord K)} {number : Nat} {p : Proc K}
    (hp : mkProcess dist first second [] rate basis moves number = .ok p) :
    ∃ wm : List (PEntry K), p.matchList = sortP wm ∧ p.basisSites = basis ∧ wm.length = first.elements.length ∧
      ∀ (i : Nat) (e : PEntry K), wm[i]? = some e → ∃ origin t t', first.coords[0]? = some origin ∧
        first.coords[i]? = some e.coord ∧ e.distance = dist (e.coord - origin) ∧ first.types[i]? = some t ∧
        second.types[i]? = some t' ∧ e.matchTypes = t ∧ bucketDiff t' t = .ok e.updateTypes := by
  unfold mkProcess at hp
  obtain ⟨us, hu, hp⟩ := bind_ok.1 hp
  obtain ⟨origin, ho, hp⟩ := bind_ok.1 hp
  obtain ⟨entries, he, hp⟩ := bind_ok.1 hp
  obtain ⟨wm, hm, hp⟩ := bind_ok.1 hp
  have hp : p = _ := (Except.ok.inj hp).symm
  obtain ⟨m1, m2, m3⟩ := setMove_loop _ _ _ hm
  refine ⟨wm, by rw [hp], by rw [hp], ?_, ?_⟩
  · rw [m1, mapMM_length he, List.length_range]
  · intro i e' h1
    obtain ⟨e, h2, h3, -⟩ := m3 i e' h1
    obtain ⟨i', h5, h6⟩ := mapMM_getElem?' he h2
    have hi' : i' = i := by
      obtain ⟨_, h⟩ := List.getElem?_eq_some_iff.1 h5
      rw [List.getElem_range] at h
      exact h.symm
    subst hi'
    unfold entryOf at h6
    obtain ⟨c, q1, h6⟩ := bind_ok.1 h6
    obtain ⟨t, q2, h6⟩ := bind_ok.1 h6
    obtain ⟨u, q3, h6⟩ := bind_ok.1 h6
    have h6 : e = _ := (Except.ok.inj h6).symm
    rw [rd_ok] at q1 q2 q3
    subst h6
    have hu' : mapMM _ _ = .ok us := hu
    obtain ⟨i2, h7, h8⟩ := mapMM_getElem?' hu' q3
    have hi2 : i2 = i' := by
      obtain ⟨_, h⟩ := List.getElem?_eq_some_iff.1 h7
      rw [List.getElem_range] at h
      exact h.symm
    subst hi2
    obtain ⟨t1, g1, h8⟩ := bind_ok.1 h8
    obtain ⟨t2, g2, h8⟩ := bind_ok.1 h8
    rw [rd_ok] at g1 g2
    rw [q2] at g1
    obtain rfl := Option.some.inj g1
    refine ⟨origin, t, t2, rd_ok.1 ho, ?_, ?_, q2, g2, ?_, ?_⟩
    · rw [h3]; exact q1
    · rw [h3]
    · rw [h3]
    · rw [h3]; exact h8

/-- Exchanging the configurations before and after gives the reverse process. -/
theorem mkProcess_undone {dist : Coord K → K} {first second : Config K} {rate rate' : K} {basis : List Nat}
    {moves moves' : List (Nat × Coord K)} {number number' n nT : Nat} {p q : Proc K} (h1 : first.Good n nT)
    (h2 : second.Good n nT) (hc : first.coords = second.coords)
    (hp : mkProcess dist first second [] rate basis moves number = .ok p)
    (hq : mkProcess dist second first [] rate' basis moves' number' = .ok q) : p.UndoneBy q := by
  obtain ⟨wp, p1, p2, p3, p4⟩ := mkProcess_places hp
  obtain ⟨wq, q1, q2, q3, q4⟩ := mkProcess_places hq
  refine ⟨?_, by rw [p2, q2]⟩
  rw [p1, q1]
  unfold sortP
  apply forall₂_insertionSort (fun a b => PEntry.lt b a = false)
  · intro a a' b b' ha hb
    unfold PEntry.lt
    rw [ha.distance, ha.coord, hb.distance, hb.coord]
  · rw [List.forall₂_iff_get]
    refine ⟨by rw [p3, q3, h1.shape.elements, h2.shape.elements], ?_⟩
    intro i hi hi'
    rw [List.get_eq_getElem, List.get_eq_getElem]
    obtain ⟨o, t, t', a1, a2, a3, a4, a5, a6, a7⟩ := p4 i _ (List.getElem?_eq_getElem hi)
    obtain ⟨o2, r, r', b1, b2, b3, b4, b5, b6, b7⟩ := q4 i _ (List.getElem?_eq_getElem hi')
    rw [hc, b1] at a1
    obtain rfl := Option.some.inj a1
    rw [hc, b2] at a2
    have a2 := Option.some.inj a2
    rw [a5] at b4
    obtain rfl := Option.some.inj b4
    rw [a4] at b5
    obtain rfl := Option.some.inj b5
    obtain ⟨d1, d2⟩ := bucketDiff_back t' t _ (by
      rw [h1.bucket t (List.mem_of_getElem? a4), h2.bucket t' (List.mem_of_getElem? a5)]) a7
    refine ⟨by rw [a3, b3, a2], a2, ?_, ?_⟩
    · rw [b6, a6, d1]
    · rw [d2] at b7
      exact (Except.ok.inj b7).symm

theorem mkProcess_distinct {dist : Coord K → K} {first second : Config K} {rate : K} {basis : List Nat}
    {moves : List (Nat × Coord K)} {number : Nat} {p : Proc K} (hc : first.coords.Pairwise Apart)
    (hp : mkProcess dist first second [] rate basis moves number = .ok p) : p.Distinct := by
  obtain ⟨wp, p1, -, -, p4⟩ := mkProcess_places hp
  unfold Proc.Distinct
  have hall : p.matchList.Pairwise (fun e f => Apart e.coord f.coord) := by
    rw [p1, (perm_sortP wp).pairwise_iff (fun h => apart_symm h), List.pairwise_iff_getElem]
    intro i k hi hk hik
    obtain ⟨-, -, -, -, a2, -⟩ := p4 i _ (List.getElem?_eq_getElem hi)
    obtain ⟨-, -, -, -, b2, -⟩ := p4 k _ (List.getElem?_eq_getElem hk)
    rw [List.pairwise_iff_getElem] at hc
    obtain ⟨l1, e1⟩ := List.getElem?_eq_some_iff.1 a2
    obtain ⟨l2, e2⟩ := List.getElem?_eq_some_iff.1 b2
    rw [← e1, ← e2]
    exact hc i k l1 l2 hik
  exact hall.imp fun h _ _ => h

end
end KMC

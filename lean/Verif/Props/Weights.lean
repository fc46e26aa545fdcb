import Verif.Props.Event
import Verif.Props.Multiplicity

/-!
# C15: the rates of bucket processes
-/

set_option linter.unusedSectionVars false

namespace KMC

variable {K : Type _} [Field K] [LinearOrder K] [IsStrictOrderedRing K]
variable {env : Env K} {n nT : Nat} {negLog : K → Option K} {cfg : Config K} {procs : List (Proc K)} {s : Sim K}

/-- Where at most one particle is present there is only one way of choosing. -/
theorem siteWays_one (rs ns : List Int)
    (h : ∀ (i : Nat) (r m : Int), rs[i]? = some r → ns[i]? = some m → r ≤ m) (h1 : ∀ m ∈ ns, m ≤ 1) :
    siteWays rs ns = 1 := by
  induction rs generalizing ns with
  | nil => rfl
  | cons r rs ih =>
    cases ns with
    | nil => rfl
    | cons m ns =>
      have hr := h 0 r m rfl rfl
      have hm := h1 m (by simp)
      unfold siteWays
      rw [ih ns (fun i r m a b => h (i + 1) r m a b) (fun m hm => h1 m (by simp [hm])), mul_one, waysToChoose_eq]
      have a1 : r.toNat ≤ m.toNat := Int.toNat_le_toNat hr
      have a2 : m.toNat ≤ 1 := by omega
      rcases Nat.le_one_iff_eq_zero_or_eq_one.1 a2 with e | e
      · rw [e] at a1 ⊢
        rw [Nat.le_zero.1 a1, Nat.choose_self]
      · rw [e] at a1 ⊢
        rcases Nat.le_one_iff_eq_zero_or_eq_one.1 a1 with f | f <;> rw [f] <;> decide

theorem patternWays_one (ps : List (PEntry K)) (cs1 cs2 : List (CEntry K)) (h : List.Forall₂ Fits ps cs1)
    (h1 : ∀ c ∈ cs1, ∀ m ∈ c.matchTypes, m ≤ 1) : patternWays ps (cs1 ++ cs2) = 1 := by
  induction h with
  | nil => cases cs2 <;> rfl
  | @cons p c ps cs hf _ ih =>
    rw [List.cons_append]
    unfold patternWays
    rw [ih (fun c hc => h1 c (by simp [hc])), mul_one]
    split
    · next h0 =>
      rcases hf with hw | ⟨-, hle⟩
      · unfold PEntry.Wild at hw
        rw [h0, Option.some.injEq] at hw
        exact absurd hw (by decide)
      · apply siteWays_one
        · intro i r m hr hm
          rw [List.getElem?_tail] at hr hm
          exact hle _ r m hr hm
        · intro m hm
          exact h1 c (by simp) m (List.mem_of_mem_tail hm)
    · rfl

/-- **C15** (partial) The rate with which a process with a rate constant fires at an available site is
the rate constant, in every state of every run. Where every site has one particle this is the rate
constant times the number of ways of choosing the required particles. Missing: sites with more
particles, for which the claim is false, `C15_not_scaled`. -/
theorem C15_rate_partial (h : GoodRun env n nT negLog cfg procs s) {j : Nat} {p : Proc K}
    (hp : s.ms.procs[j]? = some p) (hc : p.custom = false) {site : Nat} {w : K}
    (hw : (site, w) ∈ p.sites.zip p.weights) :
    w = p.rate ∧ ∃ ml, Surroundings env procs s.ms.cfg site = .ok ml ∧
      ((∀ els ∈ s.ms.cfg.elements, els.length = 1) → w = p.rate * (patternWays p.matchList ml : K)) := by
  have hsite : site ∈ p.sites := (List.of_mem_zip hw).1
  have hwr : w = p.rate := by
    obtain ⟨cfg1, procs1, hprep, hok, ⟨⟨A, hI⟩, -⟩, -⟩ := h.inv
    have hm := (List.of_mem_zip hw).2
    rw [(hI.book.rep j p hp).weights, List.mem_map] at hm
    obtain ⟨i, -, hi⟩ := hm
    rw [if_neg (by rw [hc]; decide)] at hi
    exact hi.symm
  obtain ⟨hin, -, ml, hml, hmatch⟩ := (C24_available h hp site).1 hsite
  refine ⟨hwr, ml, hml, fun hone => ?_⟩
  have hg := h.good
  have hle : ∀ t ∈ s.ms.cfg.types, ∀ m ∈ t, m ≤ 1 := by
    intro t ht m hm
    obtain ⟨i, hi⟩ := List.mem_iff_getElem?.1 ht
    obtain ⟨k, hk⟩ := List.mem_iff_getElem?.1 hm
    have hil : i < s.ms.cfg.elements.length := by
      rw [hg.shape.elements, ← hg.shape.types]
      exact (List.getElem?_eq_some_iff.1 hi).1
    have hkl : k < s.ms.cfg.typeNames.length := by
      rw [hg.names, ← hg.bucket t ht]
      exact (List.getElem?_eq_some_iff.1 hk).1
    have h1 := (hg.tallied i _ t (List.getElem?_eq_getElem hil) hi).2 k _ (List.getElem?_eq_getElem hkl)
    rw [hk, Option.some.injEq] at h1
    have h2 : s.ms.cfg.elements[i].count s.ms.cfg.typeNames[k] ≤ s.ms.cfg.elements[i].length := List.count_le_length
    rw [hone _ (List.getElem_mem hil)] at h2
    omega
  -- the entries of the surroundings show the types of sites
  have hseen : ∀ c ∈ ml, c.matchTypes ∈ s.ms.cfg.types := by
    intro c hc
    unfold Surroundings Config.configMatchList at hml
    obtain ⟨center, -, hml⟩ := bind_ok.1 hml
    obtain ⟨l, hl, hml⟩ := bind_ok.1 hml
    have hml := Except.ok.inj hml
    rw [← hml] at hc
    unfold sortC at hc
    rw [List.mem_insertionSort] at hc
    obtain ⟨k, hk⟩ := List.mem_iff_getElem?.1 hc
    obtain ⟨i, -, hi⟩ := mapMM_getElem?' hl hk
    unfold Config.cEntry at hi
    obtain ⟨ci, -, hi⟩ := bind_ok.1 hi
    obtain ⟨t, ht, hi⟩ := bind_ok.1 hi
    have hi := Except.ok.inj hi
    rw [← hi]
    exact List.mem_of_getElem? (rd_ok.1 ht)
  have hcs : SizedC nT ml := fun c hc => hg.bucket _ (hseen c hc)
  have hps : SizedP nT p.matchList := by
    obtain ⟨cfg1, procs1, hprep, hok, ⟨⟨A, hI⟩, -⟩, -⟩ := h.inv
    intro e he
    exact (hok.proc p.still (List.mem_of_getElem? (hI.proc hp))).sized e he
  obtain ⟨r, hr, hr'⟩ := whateverMatch_ok h.input.typed _ _ hps hcs
  rw [hmatch] at hr
  have hr := Except.ok.inj hr
  obtain ⟨cs1, cs2, hcs12, hf⟩ := hr'.1 hr.symm
  rw [hcs12, patternWays_one _ _ _ hf, Nat.cast_one, mul_one]
  · exact hwr
  · intro c hc m hm
    exact hle _ (hseen c (by rw [hcs12]; simp [hc])) m hm

set_option synthInstance.maxSize 5000 in
set_option synthInstance.maxHeartbeats 200000 in
/-- **C15** The claim is false of bucket processes: there are two ways of choosing one A at a site with
two, but the site is listed with the bare rate constant, and the total rate is that too. -/
theorem C15_not_scaled : ∃ (cfg : Config ℚ) (procs : List (Proc ℚ)) (s : Sim ℚ) (p : Proc ℚ) (ml : List (CEntry ℚ)),
    Sample.config (Sample.chain 3 true) [["A", "A"], ["B"], ["B"]] = .ok cfg ∧ Sample.oneOf = .ok procs ∧
    GoodRun (Sample.env (Sample.chain 3 true)) 3 4 Sample.lg cfg procs s ∧
    s.ms.procs[0]? = some p ∧ p.bucketProcess = true ∧ p.rate = 2 ∧ p.sites.zip p.weights = [(0, 2)] ∧
    p.totalRate = 2 ∧ Surroundings (Sample.env (Sample.chain 3 true)) procs s.ms.cfg 0 = .ok ml ∧
    patternWays p.matchList ml = 2 := by
  obtain ⟨cfg, procs, s, h1, h2, h, h'⟩ := Sample.good_run (env := Sample.env (Sample.chain 3 true))
    (P := Sample.chain 3 true) (els := [["A", "A"], ["B"], ["B"]]) (procs := Sample.oneOf) (ds := [])
    (f := fun s => s.ms.procs.map (fun p => (p.bucketProcess, p.rate, p.sites.zip p.weights, p.totalRate,
      (((Sample.oneOf >>= fun procs => Surroundings (Sample.env (Sample.chain 3 true)) procs s.ms.cfg 0).map
        (fun ml => ml.map (·.matchTypes)))).toOption,
      p.matchList.map (·.matchTypes))))
    (b := [(true, 2, [(0, 2)], 2, some [[0, 2, 0, 0], [0, 0, 1, 0], [0, 0, 1, 0]], [[0, 1, 0, 0]])])
    3 (by decide +kernel) rfl (by decide +kernel) (by decide +kernel)
  cases hp : s.ms.procs with
  | nil => rw [hp] at h'; cases h'
  | cons p ps =>
    rw [hp, List.map_cons, List.cons.injEq] at h'
    obtain ⟨h', -⟩ := h'
    simp only [Prod.mk.injEq] at h'
    obtain ⟨a1, a2, a3, a4, a5, a6⟩ := h'
    rw [h2] at a5
    have a5 : ((Surroundings (Sample.env (Sample.chain 3 true)) procs s.ms.cfg 0).map
        (fun ml => ml.map (·.matchTypes))).toOption = _ := a5
    cases hml : Surroundings (Sample.env (Sample.chain 3 true)) procs s.ms.cfg 0 with
    | error e => rw [hml] at a5; cases a5
    | ok ml =>
      rw [hml] at a5
      have a5 : ml.map (·.matchTypes) = [[0, 2, 0, 0], [0, 0, 1, 0], [0, 0, 1, 0]] := Option.some.inj a5
      refine ⟨cfg, procs, s, p, ml, h1, h2, h, by rw [hp]; rfl, a1, a2, a3, a4, hml, ?_⟩
      clear hml
      match hm : p.matchList, ml, a5 with
      | [e], c :: cs, a5 =>
        rw [hm, List.map_cons, List.map_nil, List.cons.injEq] at a6
        rw [List.map_cons, List.cons.injEq] at a5
        have e1 : patternWays [] cs = 1 := by cases cs <;> rfl
        unfold patternWays
        rw [a5.1, a6.1, e1]
        decide
      | [], _, _ => rw [hm] at a6; cases a6
      | _ :: _ :: _, _, _ => rw [hm] at a6; simp at a6

end KMC

import Verif.Props.Event

/-!
# With one particle per site no multiplicity overflows
-/

set_option linter.unusedSectionVars false

namespace KMC

theorem multTypes_one : ∀ (t1 t2 : Bucket) (m : Int), t1.length ≤ t2.length →
    (∀ (i : Nat) (x y : Int), t1[i]? = some x → t2[i]? = some y → x ≤ y) → (∀ y ∈ t2, y ≤ 1) →
    multTypes m t1 t2 = .ok m
  | [], _, m, _, _, _ => rfl
  | r :: rs, [], m, h, _, _ => by simp at h
  | r :: rs, n :: ns, m, h, hle, h1 => by
    have ih := multTypes_one rs ns m (by simpa using h)
      (fun i x y hx hy => hle (i + 1) x y (by simpa using hx) (by simpa using hy))
      (fun y hy => h1 y (by simp [hy]))
    unfold multTypes
    split
    · have h2 := hle 0 r n rfl rfl
      have h3 := h1 n (by simp)
      obtain rfl : r = 1 := by omega
      obtain rfl : n = 1 := by omega
      dsimp only
      rw [show multFactor m 1 1 = .ok m from rfl, ok_bind]
      exact ih
    · exact ih

variable {K : Type _} [Field K] [LinearOrder K]

theorem multLoop_one {nT : Nat} (hT : 0 < nT) {ps : List (PEntry K)} {cs1 : List (CEntry K)}
    (hf : List.Forall₂ Fits ps cs1) : ∀ (cs2 : List (CEntry K)) (m : Int), SizedP nT ps → SizedC nT cs1 →
    (∀ c ∈ cs1, ∀ y ∈ c.matchTypes, y ≤ 1) → multLoop m ps (cs1 ++ cs2) = .ok m := by
  induction hf with
  | nil => intro cs2 m _ _ _; rfl
  | @cons p c ps cs1 h0 _ ih =>
    intro cs2 m hp hc h1
    have e1 := hp p (by simp)
    have e2 := hc c (by simp)
    have ih := ih cs2 m (fun q hq => hp q (by simp [hq])) (fun q hq => hc q (by simp [hq]))
      (fun q hq => h1 q (by simp [hq]))
    rw [List.cons_append]
    unfold multLoop
    rw [rd_of_lt (by omega), ok_bind]
    split
    · next ht =>
      rcases h0 with h0 | ⟨-, h0⟩
      · unfold PEntry.Wild at h0
        rw [List.getElem?_eq_getElem (by omega), ht] at h0
        cases h0
      · rw [multTypes_one _ _ m (by simp [e1, e2]) ?_ ?_, ok_bind]
        · exact ih
        · intro i x y hx hy
          rw [List.getElem?_tail] at hx hy
          exact h0 (i + 1) x y hx hy
        · intro y hy
          exact h1 c (by simp) y (List.mem_of_mem_tail hy)
    · exact ih

section
variable [IsStrictOrderedRing K]
variable {env : Env K} {n nT : Nat} {negLog : K → Option K} {cfg : Config K} {procs : List (Proc K)}

open LatticeModel

/-- A site with one particle has at most one of every type. -/
theorem Config.Good.atMost {c : Config K} (h : c.Good n nT) (h1 : ∀ t ∈ c.types, t.sum = 1) :
    ∀ t ∈ c.types, ∀ y ∈ t, y ≤ 1 := by
  intro t ht y hy
  obtain ⟨i, hi⟩ := List.mem_iff_getElem?.1 ht
  have hil : i < c.elements.length := by
    rw [h.shape.elements, ← h.shape.types]
    exact (List.getElem?_eq_some_iff.1 hi).1
  have hel := List.getElem?_eq_getElem hil
  have hs := h.sum hel hi
  rw [h1 t ht] at hs
  obtain ⟨-, h2⟩ := h.tallied i _ t hel hi
  obtain ⟨k, hk⟩ := List.mem_iff_getElem?.1 hy
  have hkl : k < c.typeNames.length := by
    rw [h.names, ← h.bucket t ht]
    exact (List.getElem?_eq_some_iff.1 hk).1
  have h3 := h2 k _ (List.getElem?_eq_getElem hkl)
  rw [hk, Option.some.injEq] at h3
  have h4 : (c.elements[i]).count c.typeNames[k] ≤ (c.elements[i]).length := List.count_le_length
  omega

/-- In a matched list with at most one particle of a type per site the multiplicity is one. -/
theorem World.Ok.mult_one {W : World K} (h : W.Ok) {s : MState K} {A : Matcher.Content K} (hp : W.PreA s A)
    (h1 : ∀ t ∈ s.cfg.types, t.sum = 1) {i j : Nat}
    {sk : List (CEntry K)} {p : Proc K} (hsk : W.skel[i]? = some sk) (hj : s.procs[j]? = some p)
    (hm : whateverMatch p.matchList (seen s.cfg.types sk) = .ok true) :
    multiplicity p.matchList (seen s.cfg.types sk) = .ok 1 := by
  have hsp := (h.proc _ (List.mem_of_getElem? (hp.proc hj))).sized
  have hsc := h.sized hp.good hsk
  obtain ⟨r, hr, hiff⟩ := whateverMatch_ok h.typed p.matchList (seen s.cfg.types sk) hsp hsc
  rw [hm] at hr
  cases hr
  obtain ⟨cs1, cs2, he, hf⟩ := hiff.1 rfl
  rw [he] at hsc ⊢
  refine multLoop_one h.typed hf cs2 1 hsp (fun c hc => hsc c (by simp [hc])) ?_
  intro c hc
  have hc' : c ∈ seen s.cfg.types sk := by rw [he]; simp [hc]
  obtain ⟨e, hes, rfl⟩ := List.mem_map.1 hc'
  have hlt : e.index < s.cfg.types.length := by rw [hp.good.shape.types]; exact h.index hsk hes
  simp only [CEntry.look]
  rw [List.getD_eq_getElem?_getD, List.getElem?_eq_getElem hlt]
  exact hp.good.atMost h1 _ (List.getElem_mem _)

/-- A step ends once something is selected. -/
theorem World.singleStep_one {W : World K} (h : W.Ok) {s : Sim K} (hI : W.Inv s.ms)
    (hk : Kept W (fun c => ∀ t ∈ c.types, t.sum = 1)) (h1 : ∀ t ∈ s.ms.cfg.types, t.sum = 1) {u1 u2 : K}
    {r : Nat × Nat × List (Proc K)} (hsel : select s.ms.procs s.table u1 u2 = .ok r) :
    ∃ s', singleStep W.env s u1 u2 = .ok s' := by
  obtain ⟨A, hI⟩ := hI
  obtain ⟨p, p', hp, hp', hset, hsite⟩ := select_ok hsel
  obtain ⟨hI0, hp0, hst, hsites⟩ := select_inv hI hp hp'
  obtain ⟨sk, cfg1, cfg2, aff, hev⟩ := event_ok h hI0 (j := r.1) (q := p') hp0 (by rw [hsites]; exact hsite)
  have hcall := mid_call h hI0.toPreA hev
  have h2 := hk.event _ _ _ _ _ _ _ _ ⟨A, hI0⟩ hev h1
  unfold singleStep
  rw [hsel, ok_bind, hset, performAt_eq hev, ok_bind, rematch_eq h hI0.toPreA hev]
  obtain ⟨s', A', hs', -⟩ := Matcher.calculateMatching_ok hcall (by
    intro i j sk p hi hsk hj hb hm
    exact ⟨1, h.mult_one (mid_pre hI0.toPreA hev) h2 hsk hj hm⟩)
  rw [hs']
  exact ⟨_, rfl⟩

/-- The first matching ends. -/
theorem initialMatching_one (h : WellFormed env n nT cfg procs)
    (hcu : env.useCustomRates = true → CustomRatesOk env n nT cfg procs) {cfg1 : Config K} {procs1 : List (Proc K)}
    (hp : Prepared env cfg procs cfg1 procs1) (h1 : ∀ els ∈ cfg.elements, els.length = 1) :
    ∃ ms, initialMatching env cfg procs = .ok ms := by
  have hok := world_ok h hcu hp
  have hpre := start_pre h hp
  have hcall := World.callOk hok hpre (List.nodup_range (n := n)) (fun i hi => List.mem_range.1 hi)
  obtain ⟨s', A', hc, -⟩ := Matcher.calculateMatching_ok hcall (by
    intro i j sk p hi hsk hj hb hm
    exact ⟨1, hok.mult_one hpre (one_start h hp h1) hsk hj hm⟩)
  have hl := lists_of h hp.1
  have e1 : cfg.coords = cfg1.coords := by rw [hl.rest]
  unfold LatticeModel.initialMatching
  rw [hp.1, ok_bind]
  dsimp only
  rw [hp.2, ok_bind]
  unfold startState at hc
  rw [hl.shape.elements, ← prepared_length hp, e1]
  exact ⟨_, hc⟩

end
end KMC

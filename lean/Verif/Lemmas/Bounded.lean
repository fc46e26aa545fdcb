import Verif.Lemmas.OneEach
import Verif.Props.Multiplicity
import Verif.Spec.Bounded

/-!
# With few particles no multiplicity overflows
-/

set_option linter.unusedSectionVars false

namespace KMC

theorem multFactor_bounded {M m n r : Nat} (hr : 0 < r) (hrn : r ≤ n) (hM : n ≤ M) (hm : 0 < m)
    (hb : m * M ^ r ≤ 2147483647) : ∃ m' : Nat, multFactor (m : Int) n r = .ok (m' : Int) ∧ 0 < m' ∧ m' ≤ m * M ^ r := by
  have h1 : M ^ r ≤ m * M ^ r := Nat.le_mul_of_pos_left _ hm
  have h2 : n.choose r ≤ M ^ r := (Nat.choose_le_pow n r).trans (Nat.pow_le_pow_left hM r)
  have h3 : n.descFactorial (min r (n - r)) ≤ M ^ r := by
    refine (Nat.descFactorial_le_pow n _).trans ((Nat.pow_le_pow_left hM _).trans ?_)
    exact Nat.pow_le_pow_right (by omega) (min_le_left _ _)
  have h4 : m * n.choose r ≤ m * M ^ r := Nat.mul_le_mul_left m h2
  exact ⟨_, multFactor_total hr hrn (h3.trans (h1.trans hb)) (h4.trans hb), Nat.mul_pos hm (Nat.choose_pos hrn), h4⟩

theorem multTypes_bounded (M : Nat) : ∀ (t1 t2 : Bucket) (m : Nat), t1.length ≤ t2.length →
    (∀ (i : Nat) (x y : Int), t1[i]? = some x → t2[i]? = some y → x ≤ y) → (∀ y ∈ t2, y ≤ M) → 0 < m →
    m * M ^ (t1.map Int.toNat).sum ≤ 2147483647 →
    ∃ m' : Nat, multTypes (m : Int) t1 t2 = .ok (m' : Int) ∧ 0 < m' ∧ m' ≤ m * M ^ (t1.map Int.toNat).sum
  | [], _, m, _, _, _, hm, _ => ⟨m, rfl, hm, by simp⟩
  | r :: rs, [], m, h, _, _, _, _ => by simp at h
  | r :: rs, n :: ns, m, h, hle, h1, hm, hb => by
    have ih := fun m' => multTypes_bounded M rs ns m' (by simpa using h)
      (fun i x y hx hy => hle (i + 1) x y (by simpa using hx) (by simpa using hy))
      (fun y hy => h1 y (by simp [hy]))
    rw [List.map_cons, List.sum_cons, pow_add, ← mul_assoc] at hb ⊢
    unfold multTypes
    split
    · next hr =>
      have h2 := hle 0 r n rfl rfl
      have h3 := h1 n (by simp)
      obtain ⟨r', rfl⟩ := Int.eq_ofNat_of_zero_le (le_of_lt hr)
      obtain ⟨n', rfl⟩ := Int.eq_ofNat_of_zero_le ((le_of_lt hr).trans h2)
      have hr' : 0 < r' := by omega
      have hM : 0 < M := by omega
      simp only [Int.ofNat_eq_natCast, Int.toNat_natCast] at hb ⊢
      obtain ⟨m1, e1, e2, e3⟩ := multFactor_bounded (M := M) (m := m) (n := n') (r := r') hr' (by omega) (by omega) hm
        ((Nat.le_mul_of_pos_right _ (Nat.pow_pos hM)).trans hb)
      rw [e1, ok_bind]
      have e4 : m1 * M ^ (rs.map Int.toNat).sum ≤ m * M ^ r' * M ^ (rs.map Int.toNat).sum := Nat.mul_le_mul_right _ e3
      obtain ⟨m2, f1, f2, f3⟩ := ih m1 e2 (e4.trans hb)
      exact ⟨m2, f1, f2, f3.trans e4⟩
    · next hr =>
      have : r.toNat = 0 := by omega
      rw [this, pow_zero, mul_one] at hb ⊢
      exact ih m hm hb

variable {K : Type _} [Field K] [LinearOrder K]

theorem multLoop_bounded {nT : Nat} (hT : 0 < nT) (M : Nat) {ps : List (PEntry K)} {cs1 : List (CEntry K)}
    (hf : List.Forall₂ Fits ps cs1) : ∀ (cs2 : List (CEntry K)) (m : Nat), SizedP nT ps → SizedC nT cs1 →
    (∀ c ∈ cs1, ∀ y ∈ c.matchTypes, y ≤ M) → 0 < m → 0 < M → m * M ^ (ps.map PEntry.need).sum ≤ 2147483647 →
    ∃ m' : Nat, multLoop (m : Int) ps (cs1 ++ cs2) = .ok (m' : Int) := by
  induction hf with
  | nil => intro cs2 m _ _ _ _ _ _; exact ⟨m, rfl⟩
  | @cons p c ps cs1 h0 _ ih =>
    intro cs2 m hp hc h1 hm hM hb
    have e1 := hp p (by simp)
    have e2 := hc c (by simp)
    have ih := fun m' => ih cs2 m' (fun q hq => hp q (by simp [hq])) (fun q hq => hc q (by simp [hq]))
      (fun q hq => h1 q (by simp [hq]))
    rw [List.cons_append]
    rw [List.map_cons, List.sum_cons, pow_add, ← mul_assoc] at hb
    unfold multLoop
    rw [rd_of_lt (by omega), ok_bind]
    split
    · next ht =>
      have hn : p.need = (p.matchTypes.tail.map Int.toNat).sum := by
        unfold PEntry.need
        rw [if_pos (by rw [List.getElem?_eq_getElem (by omega), ht])]
      rcases h0 with h0 | ⟨-, h0⟩
      · unfold PEntry.Wild at h0
        rw [List.getElem?_eq_getElem (by omega), ht] at h0
        cases h0
      · rw [hn] at hb
        obtain ⟨m1, f1, f2, f3⟩ := multTypes_bounded M p.matchTypes.tail c.matchTypes.tail m (by simp [e1, e2])
          (by
            intro i x y hx hy
            rw [List.getElem?_tail] at hx hy
            exact h0 (i + 1) x y hx hy)
          (fun y hy => h1 c (by simp) y (List.mem_of_mem_tail hy)) hm
          ((Nat.le_mul_of_pos_right _ (Nat.pow_pos hM)).trans hb)
        rw [f1, ok_bind]
        exact ih m1 f2 hM ((Nat.mul_le_mul_right _ f3).trans hb)
    · next ht =>
      refine ih m hm hM ?_
      refine le_trans (Nat.mul_le_mul_right _ ?_) hb
      exact Nat.le_mul_of_pos_right _ (Nat.pow_pos hM)


theorem sum_need (l : List (PEntry K)) :
    ((l.filter (fun e => decide (e.need ≠ 0))).map PEntry.need).sum = (l.map PEntry.need).sum := by
  induction l with
  | nil => rfl
  | cons e l ih =>
    rw [List.filter_cons, List.map_cons, List.sum_cons]
    split
    · rw [List.map_cons, List.sum_cons, ih]
    · next hc =>
      rw [ih]
      have : e.need = 0 := by simpa using hc
      omega

section
variable [IsStrictOrderedRing K]
variable {env : Env K} {n nT : Nat} {negLog : K → Option K} {cfg : Config K} {procs : List (Proc K)}

open LatticeModel

theorem need_wildcardFor (c : CEntry K) : (wildcardFor c).need = 0 := by
  unfold PEntry.need
  rw [if_neg]
  unfold wildcardFor Bucket.zeros
  rw [List.getElem?_set]
  simp

/-- Inserted wildcards ask for nothing. -/
theorem Proc.From.need {p q : Proc K} (h : p.From q) : q.need = p.need := by
  unfold Proc.need
  rw [← sum_need, ← sum_need p.matchList, h.keep _ (fun c => by simp [need_wildcardFor c])]

/-- In a matched list with few particles the multiplicity is computed. -/
theorem World.Ok.mult_bounded {W : World K} (h : W.Ok) {s : MState K} {A : Matcher.Content K} (hp : W.PreA s A) {M : Nat}
    (hM : 0 < M) (h1 : ∀ t ∈ s.cfg.types, ∀ y ∈ t, y ≤ (M : Int)) {i j : Nat}
    {sk : List (CEntry K)} {p : Proc K} (hsk : W.skel[i]? = some sk) (hj : s.procs[j]? = some p)
    (hb : M ^ p.need ≤ 2147483647) (hm : whateverMatch p.matchList (seen s.cfg.types sk) = .ok true) :
    ∃ m, multiplicity p.matchList (seen s.cfg.types sk) = .ok m := by
  have hsp := (h.proc _ (List.mem_of_getElem? (hp.proc hj))).sized
  have hsc := h.sized hp.good hsk
  obtain ⟨r, hr, hiff⟩ := whateverMatch_ok h.typed p.matchList (seen s.cfg.types sk) hsp hsc
  rw [hm] at hr
  cases hr
  obtain ⟨cs1, cs2, he, hf⟩ := hiff.1 rfl
  rw [he] at hsc ⊢
  obtain ⟨m, hm⟩ := multLoop_bounded h.typed M hf cs2 1 hsp (fun c hc => hsc c (by simp [hc])) (by
    intro c hc
    have hc' : c ∈ seen s.cfg.types sk := by rw [he]; simp [hc]
    obtain ⟨e, hes, rfl⟩ := List.mem_map.1 hc'
    have hlt : e.index < s.cfg.types.length := by rw [hp.good.shape.types]; exact h.index hsk hes
    simp only [CEntry.look]
    rw [List.getD_eq_getElem?_getD, List.getElem?_eq_getElem hlt]
    exact h1 _ (List.getElem_mem _)) Nat.one_pos hM (by rw [one_mul]; exact hb)
  exact ⟨m, hm⟩

/-- The two reasons for few particles, on a configuration. -/
def Crowd (M : Nat) (cfg : Config K) (procs : List (Proc K)) (c : Config K) : Prop :=
  ((∀ p ∈ procs, ∀ e ∈ p.matchList, e.updateTypes.sum ≤ 0) ∧ ∀ t ∈ c.types, t.sum ≤ M) ∨
  ((∀ p ∈ procs, (p.matchList.map (·.updateTypes.sum)).sum ≤ 0) ∧ (c.types.map List.sum).sum ≤ M)

theorem zipWith_add_sum : ∀ a b : List Int, a.length = b.length → (List.zipWith (· + ·) a b).sum = a.sum + b.sum
  | [], [], _ => rfl
  | x :: a, y :: b, h => by
    rw [List.zipWith_cons_cons, List.sum_cons, List.sum_cons, List.sum_cons, zipWith_add_sum a b (by simpa using h)]
    omega

/-- The number of all particles changes by the sum of the updates. -/
theorem World.Event.crowd {W : World K} {s : MState K} {j site : Nat} {q : Proc K} {sk : List (CEntry K)} {c1 c2 : Config K}
    {aff : List Nat} (h : W.Event s j site q sk c1 c2 aff) (hg : s.cfg.Good W.n W.nT) :
    (c2.types.map List.sum).sum = (s.cfg.types.map List.sum).sum +
      ((q.matchList.filter (fun e => decide e.Acts)).map (fun e => e.updateTypes.sum)).sum := by
  have hlen : c2.types.length = s.cfg.types.length := by rw [h.types]; exact h.done.typesLen
  have := sum_update ((acting q.matchList (seen s.cfg.types sk)).map (fun e => (e.2.index, e.1.updateTypes.sum)))
    (s.cfg.types.map List.sum) (c2.types.map List.sum) (by simpa using hlen)
    (by simpa [Function.comp_def] using h.ready.nodup)
    (by
      intro e he
      obtain ⟨x, hx, rfl⟩ := List.mem_map.1 he
      have := h.changed_lt (List.mem_map_of_mem hx)
      simpa [hg.shape.types] using this)
    (by
      intro e he x hx
      obtain ⟨a, ha, rfl⟩ := List.mem_map.1 he
      rw [List.getElem?_map, Option.map_eq_some_iff] at hx
      obtain ⟨t, ht, rfl⟩ := hx
      rw [List.getElem?_map, h.typeAt ha ht, Option.map_some, Option.some.injEq]
      have hl1 : t.length = W.nT := hg.bucket t (List.mem_of_getElem? ht)
      have hl2 := h.ready.update _ (Config.mem_acting ha).1 (Config.mem_acting ha).2.2
      exact zipWith_add_sum _ _ (hl1.trans hl2.symm))
    (by
      intro i hi
      rw [List.getElem?_map, List.getElem?_map, h.typeOff]
      simpa [changed] using hi)
  rw [this, ← acting_fst h.ready.len]
  simp [Function.comp_def]

theorem sum_changing' (l : List (PEntry K)) :
    ((l.filter (fun e => decide e.Changes)).map (fun e => e.updateTypes.sum)).sum =
      (l.map (fun e => e.updateTypes.sum)).sum := by
  induction l with
  | nil => rfl
  | cons e l ih =>
    rw [List.filter_cons, List.map_cons, List.sum_cons]
    split
    · rw [List.map_cons, List.sum_cons, ih]
    · next hc =>
      rw [ih]
      have : e.updateTypes.sum = 0 := by
        apply List.sum_eq_zero
        intro u hu
        by_contra h0
        exact hc (decide_eq_true ⟨u, hu, h0⟩)
      omega

theorem crowd_kept (hin : WellFormed env n nT cfg procs) {cfg1 : Config K} {procs1 : List (Proc K)}
    (hprep : Prepared env cfg procs cfg1 procs1) (M : Nat) :
    Kept (World.of env n nT (Interactions.maxRange procs) cfg1 procs1) (Crowd M cfg procs) := by
  refine ⟨?_, ?_⟩
  · intro c c' hcc hc
    unfold Crowd at hc ⊢
    rw [hcc]
    exact hc
  · intro ms j site q sk c1 c2 aff hinv hev hc
    obtain ⟨p0, hp0, hf⟩ := World.source hprep hinv hev.proc
    have hp0m := List.mem_of_getElem? hp0
    have hw := hin.processes p0 hp0m
    obtain ⟨A, hI⟩ := hinv
    rcases hc with ⟨hb, hc⟩ | ⟨hb, hc⟩
    · refine .inl ⟨hb, fun t ht => ?_⟩
      obtain ⟨i, hi⟩ := List.mem_iff_getElem?.1 ht
      by_cases hch : i ∈ World.changed ms q sk
      · have hlt := hev.changed_lt hch
        obtain ⟨e, he, rfl⟩ := List.mem_map.1 hch
        have hlt' : e.2.index < ms.cfg.types.length := by rw [hI.good.shape.types]; exact hlt
        have ht0 := List.getElem?_eq_getElem hlt'
        rw [hev.typeAt he ht0, Option.some.injEq] at hi
        obtain ⟨m1, m2, m3⟩ := Config.mem_acting he
        have hl := hev.ready.update _ m1 m3
        have hl2 := hI.good.bucket _ (List.getElem_mem hlt')
        have h1 := hc _ (List.getElem_mem hlt')
        have h2 := hb p0 hp0m e.1 (hf.mem m1 (.inl (acts_changes m3)))
        rw [← hi, zipWith_add_sum _ _ (hl2.trans hl.symm)]
        omega
      · rw [hev.typeOff hch] at hi
        exact hc t (List.mem_of_getElem? hi)
    · refine .inr ⟨hb, ?_⟩
      rw [hev.crowd hI.good, hf.changing hw, sum_changing']
      have := hb p0 hp0m
      omega

theorem crowd_start (hin : WellFormed env n nT cfg procs) {cfg1 : Config K} {procs1 : List (Proc K)}
    (hprep : Prepared env cfg procs cfg1 procs1) {M : Nat} (hb : Bounded M cfg procs) : Crowd M cfg procs cfg1 := by
  have hl := lists_of hin hprep.1
  have hg := hin.config
  have hsum : cfg.types.map List.sum = cfg.elements.map (fun els => (els.length : Int)) := by
    apply List.ext_getElem (by rw [List.length_map, List.length_map, hg.shape.types, hg.shape.elements])
    intro i h1 h2
    rw [List.getElem_map, List.getElem_map]
    simp only [List.length_map] at h1 h2
    exact hg.sum (List.getElem?_eq_getElem h2) (List.getElem?_eq_getElem h1)
  have ht : cfg1.types = cfg.types := by rw [hl.rest]
  unfold Crowd
  rw [ht]
  rcases hb with ⟨h1, h2⟩ | ⟨h1, h2⟩
  · refine .inl ⟨h2, fun t htm => ?_⟩
    have : t.sum ∈ cfg.types.map List.sum := List.mem_map_of_mem htm
    rw [hsum, List.mem_map] at this
    obtain ⟨els, hels, he⟩ := this
    rw [← he]
    exact_mod_cast h1 els hels
  · refine .inr ⟨h2, ?_⟩
    rw [hsum]
    have : (cfg.elements.map (fun els => (els.length : Int))).sum = ((cfg.elements.map List.length).sum : Nat) := by
      rw [Nat.cast_list_sum, List.map_map]
      rfl
    rw [this]
    exact_mod_cast h1

theorem crowd_most {M : Nat} {c : Config K} (hg : c.Good n nT) (h : Crowd M cfg procs c) :
    ∀ t ∈ c.types, ∀ y ∈ t, y ≤ (M : Int) := by
  have hnn : ∀ t ∈ c.types, ∀ y ∈ t, (0 : Int) ≤ y := by
    intro t ht y hy
    obtain ⟨i, hi⟩ := List.mem_iff_getElem?.1 ht
    have hil : i < c.elements.length := by
      rw [hg.shape.elements, ← hg.shape.types]
      exact (List.getElem?_eq_some_iff.1 hi).1
    obtain ⟨k, hk⟩ := List.mem_iff_getElem?.1 hy
    have hkl : k < c.typeNames.length := by
      rw [hg.names, ← hg.bucket t ht]
      exact (List.getElem?_eq_some_iff.1 hk).1
    have h3 := (hg.tallied i _ t (List.getElem?_eq_getElem hil) hi).2 k _ (List.getElem?_eq_getElem hkl)
    rw [hk, Option.some.injEq] at h3
    omega
  have h1 : ∀ t ∈ c.types, t.sum ≤ (M : Int) := by
    rcases h with ⟨-, h⟩ | ⟨-, h⟩
    · exact h
    · intro t ht
      refine le_trans (List.single_le_sum (l := c.types.map List.sum) ?_ _ (List.mem_map_of_mem ht)) h
      intro x hx
      obtain ⟨t', ht', rfl⟩ := List.mem_map.1 hx
      exact List.sum_nonneg (hnn t' ht')
  intro t ht y hy
  exact (List.single_le_sum (hnn t ht) _ hy).trans (h1 t ht)

/-- A step ends once something is selected. -/
theorem World.singleStep_bounded {W : World K} (h : W.Ok) {s : Sim K} (hI : W.Inv s.ms) {M : Nat} (hM : 0 < M)
    (hneed : ∀ q ∈ W.procs, M ^ q.need ≤ 2147483647)
    (hk : Kept W (Crowd M cfg procs)) (h1 : Crowd M cfg procs s.ms.cfg) {u1 u2 : K}
    {r : Nat × Nat × List (Proc K)} (hsel : select s.ms.procs s.table u1 u2 = .ok r) :
    ∃ s', singleStep W.env s u1 u2 = .ok s' := by
  obtain ⟨A, hI⟩ := hI
  obtain ⟨p, p', hp, hp', hset, hsite⟩ := select_ok hsel
  obtain ⟨hI0, hp0, hst, hsites⟩ := select_inv hI hp hp'
  obtain ⟨sk, cfg1, cfg2, aff, hev⟩ := event_ok h hI0 (j := r.1) (q := p') hp0 (by rw [hsites]; exact hsite)
  have hcall := mid_call h hI0.toPreA hev
  have h2 := hk.event _ _ _ _ _ _ _ _ ⟨A, hI0⟩ hev h1
  unfold singleStep
  rw [hsel, ok_bind, hset, performAt_eq hev, ok_bind, rematch_eq h hI0.toPreA hev]
  obtain ⟨s', A', hs', -⟩ := Matcher.calculateMatching_ok hcall (by
    intro i j sk p hi hsk hj hb hm
    have hpre := mid_pre hI0.toPreA hev
    exact h.mult_bounded hpre hM (crowd_most hpre.good h2) hsk hj (hneed p.still (List.mem_of_getElem? (hpre.proc hj))) hm)
  rw [hs']
  exact ⟨_, rfl⟩

/-- The processes after preparation ask for as much as before. -/
theorem prepared_need {cfg1 : Config K} {procs1 : List (Proc K)} (hp : Prepared env cfg procs cfg1 procs1) {M : Nat}
    (hf : FewEnough M procs) : ∀ q ∈ (World.of env n nT (Interactions.maxRange procs) cfg1 procs1).procs,
      M ^ q.need ≤ 2147483647 := by
  intro q hq
  have hq : q ∈ procs1.map Proc.still := hq
  obtain ⟨p1, hp1, rfl⟩ := List.mem_map.1 hq
  obtain ⟨j, hj⟩ := List.mem_iff_getElem?.1 hp1
  obtain ⟨p, hpj, hfrom⟩ := prepared_from hp hj
  have : p1.still.need = p.need := hfrom.need
  rw [this]
  exact hf.2 p (List.mem_of_getElem? hpj)

/-- The first matching ends. -/
theorem initialMatching_bounded (h : WellFormed env n nT cfg procs)
    (hcu : env.useCustomRates = true → CustomRatesOk env n nT cfg procs) {cfg1 : Config K} {procs1 : List (Proc K)}
    (hp : Prepared env cfg procs cfg1 procs1) {M : Nat} (hb : Bounded M cfg procs) (hf : FewEnough M procs) :
    ∃ ms, initialMatching env cfg procs = .ok ms := by
  have hok := world_ok h hcu hp
  have hpre := start_pre h hp
  have hneed := prepared_need (n := n) (nT := nT) hp hf
  refine initialMatching_progress h hcu hp ?_
  intro i j sk p hi hsk hj hbs hm
  exact hok.mult_bounded hpre hf.1 (crowd_most hpre.good (crowd_start h hp hb)) hsk hj
    (hneed p.still (List.mem_of_getElem? (hpre.proc hj))) hm

end
end KMC

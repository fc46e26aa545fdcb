import Verif.Lemmas.Moves

/-!
# Tracked coordinates
-/

set_option linter.unusedSectionVars false

namespace KMC

variable {K : Type _} [Field K] [LinearOrder K] [IsStrictOrderedRing K]
variable {env : Env K} {n nT : Nat} {negLog : K → Option K} {cfg cfg1 : Config K} {procs procs1 : List (Proc K)}

open Spec LatticeModel

theorem AlongAxis.mono {per : Bool} {rep : Nat} {tol tol' a b : K} (h : AlongAxis per rep tol a b) (ht : tol ≤ tol') :
    AlongAxis per rep tol' a b := by
  obtain ⟨m, h1, h2⟩ := h
  exact ⟨m, h1, le_trans h2 ht⟩

theorem SameInBox.mono {L : LatticeMap} {tol tol' : K} {x y : Coord K} (h : SameInBox L tol x y) (ht : tol ≤ tol') :
    SameInBox L tol' x y := ⟨AlongAxis.mono h.1 ht, AlongAxis.mono h.2.1 ht, AlongAxis.mono h.2.2 ht⟩

theorem AlongAxis.wrap (per : Bool) (rep : Nat) (c : K) :
    AlongAxis per rep 0 c (if per = true then LatticeMap.wrapComp rep c else c) := by
  cases per with
  | false => exact ⟨0, fun _ => rfl, by simp⟩
  | true =>
    simp only [if_true]
    unfold LatticeMap.wrapComp
    dsimp only
    split_ifs
    · exact ⟨-1, fun h => (by cases h), by simp⟩
    · exact ⟨1, fun h => (by cases h), by simp⟩
    · exact ⟨0, fun _ => rfl, by simp⟩

theorem SameInBox.wrap (L : LatticeMap) (v : Coord K) : SameInBox L 0 v (L.wrap v) :=
  ⟨AlongAxis.wrap _ _ _, AlongAxis.wrap _ _ _, AlongAxis.wrap _ _ _⟩

/-- One move along an axis: `x0`, `x` the old and new site, `c` the centre, `w0`, `w` their wrapped
relative coordinates, `e`, `f` the entries, `v` the move vector and `a` the tracked coordinate. -/
theorem AlongAxis.step {per : Bool} {rep : Nat} {tol τ δ x0 x c w0 w e f v a : K}
    (h0 : AlongAxis per rep 0 (x0 - c) w0) (h1 : AlongAxis per rep 0 (x - c) w)
    (h2 : |w0 - e| ≤ τ) (h3 : |w - f| ≤ τ) (h4 : |f - (e + v)| ≤ δ) (h5 : AlongAxis per rep tol x0 a) :
    AlongAxis per rep (tol + (2 * τ + δ)) x (a + v) := by
  obtain ⟨m0, p0, q0⟩ := h0
  obtain ⟨m1, p1, q1⟩ := h1
  obtain ⟨m, p, q⟩ := h5
  refine ⟨m + m1 - m0, fun hp => by rw [p hp, p1 hp, p0 hp]; rfl, ?_⟩
  push_cast
  rw [abs_le] at q0 q1 h2 h3 h4 q ⊢
  constructor <;> nlinarith [q0.1, q0.2, q1.1, q1.2, h2.1, h2.2, h3.1, h3.2, h4.1, h4.2, q.1, q.2]

/-- The tracked coordinate of every atom is that of its site, up to whole boxes and `tol`. -/
def Tracked (L : LatticeMap) (tol : K) (c : Config K) : Prop :=
  ∀ (i id : Nat) (x y : Coord K), c.atomId[i]? = some id → c.coords[i]? = some x → c.atomIdCoords[id]? = some y →
    SameInBox L tol x y

theorem Proc.Faithful.of_from {p q : Proc K} {δ : K} (h : p.Faithful δ) (hf : p.From q) : q.Faithful δ := by
  refine ⟨h.toClosed.of_from hf, ?_, ?_, by rw [hf.moved]; exact h.lands⟩
  · intro e he hm
    exact h.shown e (hf.mem he (.inr hm)) hm
  · intro e he hm
    rcases hf.entry e he with h1 | ⟨c, rfl⟩
    · exact h.resting e h1 hm
    · rfl

namespace World

variable {W : World K} {s : MState K} {j site : Nat} {q : Proc K} {sk : List (CEntry K)} {c1 c2 : Config K}
  {aff : List Nat}

theorem Event.tracked (hW : W.Ok) (h : W.Event s j site q sk c1 c2 aff) (hg : s.cfg.Good W.n W.nT) {tol τ δ : K}
    (h0 : 0 ≤ 2 * τ + δ) (hcl : q.Faithful δ) (hacts : ∀ e ∈ q.matchList, e.Changes → e.Acts)
    (hn : s.cfg.atomId.Nodup)
    (hgeo : ∃ center : Coord K, ∀ e ∈ sk, ∃ x, s.cfg.coords[e.index]? = some x ∧ e.coord = W.env.L.wrap (x - center))
    (hclose : ∀ e ∈ q.matchList, ∀ c ∈ sk, e.hasMove = true → samePoint e c = true → Near τ e.coord c.coord)
    (ht : Tracked W.env.L tol s.cfg) : Tracked W.env.L (tol + (2 * τ + δ)) c2 := by
  have hca := h.carried hW hg hcl.toClosed
  have hid1 : c1.atomId = s.cfg.atomId := by rw [h.done.rest]
  have hco : c2.atomIdCoords = c1.atomIdCoords := by rw [h.moved.rest]
  have hinj : ∀ (a b id : Nat), s.cfg.atomId[a]? = some id → s.cfg.atomId[b]? = some id → a = b := by
    intro a b id ha hb
    obtain ⟨a2, a3⟩ := List.getElem?_eq_some_iff.1 ha
    obtain ⟨b2, b3⟩ := List.getElem?_eq_some_iff.1 hb
    have : (⟨a, a2⟩ : Fin s.cfg.atomId.length) = ⟨b, b2⟩ := List.nodup_iff_injective_getElem.1 hn (by
      show s.cfg.atomId[a] = s.cfg.atomId[b]
      rw [a3, b3])
    exact congrArg Fin.val this
  obtain ⟨center, hgeo⟩ := hgeo
  have hpt : ∀ (k : Nat) (e : PEntry K) (c : CEntry K), q.matchList[k]? = some e →
      (seen s.cfg.types sk)[k]? = some c → e.hasMove = true →
      Near τ e.coord c.coord ∧ ∃ x, s.cfg.coords[c.index]? = some x ∧ c.coord = W.env.L.wrap (x - center) := by
    intro k e c he hc hm
    obtain ⟨l1, l2, hl, hf⟩ := h.fits
    obtain ⟨hk1, hk2⟩ := List.getElem?_eq_some_iff.1 he
    have hc' := hc
    rw [hl, List.getElem?_append_left (by rw [← hf.length_eq]; exact hk1)] at hc
    obtain ⟨hk3, hk4⟩ := List.getElem?_eq_some_iff.1 hc
    have := (List.forall₂_iff_get.1 hf).2 k hk1 hk3
    simp only [List.get_eq_getElem, hk2, hk4] at this
    obtain ⟨d, hd, hdc⟩ := List.mem_map.1 (List.mem_of_getElem? hc')
    rcases this with hw | hw
    · exact absurd hw (h.procOk.notWild e (List.mem_of_getElem? he) (.inr hm))
    · have h1 := hclose e (List.mem_of_getElem? he) d hd hm (by rw [← samePoint_look s.cfg.types, hdc]; exact hw.1)
      obtain ⟨x, hx⟩ := hgeo d hd
      rw [← hdc]
      exact ⟨h1, x, hx⟩
  intro i id x y hi hx hy
  rw [h.coords] at hx
  rw [hco] at hy
  obtain ⟨i0, hi0, h1⟩ := hca.origin i
  rw [hi] at hi0
  have hidlt : id < s.cfg.atomIdCoords.length := by
    rw [hg.shape.atomIdCoords]; exact hg.idsLt id (List.mem_of_getElem? hi0.symm)
  obtain ⟨ac, hac⟩ : ∃ ac, s.cfg.atomIdCoords[id]? = some ac := ⟨_, List.getElem?_eq_getElem hidlt⟩
  rcases h1 with h1 | ⟨rfl, h1⟩
  · obtain ⟨mv, hmv, heq⟩ := List.mem_map.1 h1
    simp only [Prod.mk.injEq] at heq
    obtain ⟨e, f, c, d, e1, e2, e3, e4, e5, e6, e7, e8⟩ := h.ends hmv
    rw [e7] at heq
    rw [e8] at heq
    obtain ⟨rfl, rfl⟩ := heq
    obtain ⟨n1, x0, x1, x2⟩ := hpt _ _ _ e1 e5 e3
    obtain ⟨n2, x', y1, y2⟩ := hpt _ _ _ e2 e6 e4
    rw [hx, Option.some.injEq] at y1
    subst y1
    have hl := hcl.lands (e, f) (moved_mem hmv e1 e2)
    have hact : (e, c) ∈ acting q.matchList (seen s.cfg.types sk) := by
      unfold acting
      rw [List.mem_filter]
      refine ⟨List.mem_iff_getElem?.2 ⟨mv.1, ?_⟩, ?_⟩
      · rw [List.getElem?_zip_eq_some]; exact ⟨e1, e5⟩
      · exact decide_eq_true (hacts e (List.mem_of_getElem? e1) (hcl.shown e (List.mem_of_getElem? e1) e3))
    have hnew := h.done.coordAt hn (e, c) hact id ac hi0.symm hac
    rw [hy, Option.some.injEq] at hnew
    subst hnew
    have hold := ht c.index id x0 ac hi0.symm x1 hac
    have w0 := SameInBox.wrap W.env.L (x0 - center)
    have w1 := SameInBox.wrap W.env.L (x - center)
    rw [← x2] at w0
    rw [← y2] at w1
    exact ⟨AlongAxis.step w0.1 w1.1 n1.1 n2.1 hl.1 hold.1, AlongAxis.step w0.2.1 w1.2.1 n1.2.1 n2.2.1 hl.2.1 hold.2.1,
      AlongAxis.step w0.2.2 w1.2.2 n1.2.2 n2.2.2 hl.2.2 hold.2.2⟩
  · have hsame : c1.atomIdCoords[id]? = some ac := by
      by_cases hc : i0 ∈ changed s q sk
      · obtain ⟨e, he, rfl⟩ := List.mem_map.1 hc
        obtain ⟨k, k1, k2, -⟩ := acting_pos he
        have hm : e.1.hasMove = false := by
          cases hm : e.1.hasMove with
          | false => rfl
          | true => exact absurd (h.mover hcl.toClosed k1 k2 hm) h1
        have := h.done.coordAt hn e he id ac hi0.symm hac
        rw [this, hcl.resting e.1 (List.mem_of_getElem? k1) hm]
        congr 1
        show Coord.add ac ⟨0, 0, 0⟩ = ac
        unfold Coord.add
        simp
      · rw [h.done.coordOff id ?_]
        · exact hac
        · intro e he heq
          have := hinj _ _ _ heq hi0.symm
          exact hc (List.mem_map.2 ⟨e, he, this⟩)
    rw [hsame, Option.some.injEq] at hy
    subst hy
    exact SameInBox.mono (ht i0 id x ac hi0.symm hx hac) (by linarith)

end World

/-! ### Counting steps -/

/-- A property of configurations that depends on the number of events. -/
structure KeptAt (W : World K) (P : Nat → Config K → Prop) : Prop where
  same : ∀ m c c', Matcher.SameBut c c' → P m c → P m c'
  event : ∀ m ms j site q sk cfg1 cfg2 aff, W.Inv ms → W.Event ms j site q sk cfg1 cfg2 aff →
    P m ms.cfg → P (m + 1) cfg2

theorem run_count {W : World K} (hW : W.Ok) {P : Nat → Config K → Prop} (hP : KeptAt W P) (ds : List (Draws K)) (m : Nat)
    {s s' : Sim K} (hs : AtRun W s) (h : run W.env negLog ds s = .ok s') (h0 : P m s.ms.cfg) :
    P (m + ds.length) s'.ms.cfg := by
  induction ds generalizing s m with
  | nil => cases h; exact h0
  | cons d ds ih =>
    unfold run at h
    rw [loopM_cons, bind_ok] at h
    obtain ⟨s1, h1, h2⟩ := h
    obtain ⟨a1, s2, ms0, j, site, q, sk, c1, c2, aff, e1, e2, hst⟩ := step_ok hW hs h1
    have h3 : P (m + 1) s1.ms.cfg := by
      refine hP.same _ _ _ hst.same (hP.event m _ _ _ _ _ _ _ _ hst.inv hst.event ?_)
      rw [hst.cfg, e1]
      exact h0
    have := ih (m + 1) a1 h2 h3
    rw [List.length_cons]
    rwa [show m + (ds.length + 1) = m + 1 + ds.length by omega]

theorem reached_count (h1 : WellFormed env n nT cfg procs)
    (h2 : env.useCustomRates = true → CustomRatesOk env n nT cfg procs) {s0 s : Sim K} {ds : List (Draws K)}
    (h3 : LatticeModel.init env cfg procs = .ok s0) (h4 : run env negLog ds s0 = .ok s) :
    ∃ cfg1 procs1, Prepared env cfg procs cfg1 procs1 ∧
      (World.of env n nT (Interactions.maxRange procs) cfg1 procs1).Ok ∧
      ∀ P : Nat → Config K → Prop, KeptAt (World.of env n nT (Interactions.maxRange procs) cfg1 procs1) P →
        P 0 cfg1 → P ds.length s.ms.cfg := by
  unfold LatticeModel.init at h3
  rw [bind_ok] at h3
  obtain ⟨ms, h5, h3⟩ := h3
  cases h3
  obtain ⟨cfg1, procs1, hp, hok, hinv, hsame⟩ := initialMatching_inv h1 h2 h5
  refine ⟨cfg1, procs1, hp, hok, fun P hP hc => ?_⟩
  have := run_count hok hP ds 0 (s := { ms := ms, table := Interactions.probabilityTable ms.procs, time := 0 })
    ⟨hinv, rfl⟩ h4 (hP.same _ _ _ hsame hc)
  simpa using this

end KMC

import Verif.Spec.Robust
import Verif.Lemmas.AlikeInit
import Verif.Lemmas.Coord
import Verif.Lemmas.Lattice2
import Verif.Lemmas.Environment
import Mathlib.Tactic.Linarith
import Mathlib.Algebra.Order.Field.Basic
import Mathlib.Algebra.Order.AbsoluteValue.Basic

/-!
# Errors in coordinates
-/

set_option linter.unusedSectionVars false

namespace KMC

variable {K : Type} [Field K] [LinearOrder K] [IsStrictOrderedRing K]

section
variable {fl : K → K} {u : K}

theorem Within.mul_le (h : Within fl u) {x B : K} (hB : |x| ≤ B) : |fl x - x| ≤ u * B :=
  le_trans (h.err x) (mul_le_mul_of_nonneg_left hB h.nonneg)

theorem Within.tolerance (h : Within fl u) : |InDouble.epsi fl - 1 / 100000| ≤ u * (1 / 100000) := by
  have := h.mul_le (x := 1 / 100000) (B := 1 / 100000) (by rw [abs_of_pos (by norm_num)])
  exact this

theorem Within.abs_le (h : Within fl u) (y : K) : |fl y| ≤ |y| + u * |y| := by
  have h1 := h.err y
  have h2 : |fl y| ≤ |fl y - y| + |y| := by
    have := abs_add_le (fl y - y) y
    simpa using this
  linarith

theorem Within.le_abs (h : Within fl u) (y : K) : |y| - u * |y| ≤ |fl y| := by
  have h1 := h.err y
  have h2 : |y| ≤ |fl y - y| + |fl y| := by
    have := abs_add_le (y - fl y) (fl y)
    rw [abs_sub_comm y (fl y)] at this
    simpa using this
  linarith

/-- A comparison with the tolerance comes out right when the exact difference is clear of it. -/
theorem tolerance_agree (h : Within fl u) {ε μ y y' : K} (hμ : 2 * ε + 4 * u * (1 / 100000) ≤ μ) (hy : |y' - y| ≤ 2 * ε)
    (hc : ClearOf μ y) :
    (|fl y'| > InDouble.epsi fl ↔ |y| > 1 / 100000) ∧ (|fl y'| < InDouble.epsi fl ↔ |y| < 1 / 100000) := by
  have he := abs_le.1 h.tolerance
  have hu := h.nonneg
  have hu2 := h.small
  have t1 : |y'| ≤ |y' - y| + |y| := by
    have := abs_add_le (y' - y) y
    simpa using this
  have t2 : |y| ≤ |y' - y| + |y'| := by
    have := abs_add_le (y - y') y'
    rw [abs_sub_comm y y'] at this
    simpa using this
  have k1 := h.abs_le y'
  have k2 := h.le_abs y'
  rcases hc with hc | hc
  · have hlt : |fl y'| < InDouble.epsi fl := by
      have a1 : |y'| < 1 / 100000 - 4 * u * (1 / 100000) := by linarith
      have a2 : u * |y'| ≤ u * (1 / 100000 - 4 * u * (1 / 100000)) := mul_le_mul_of_nonneg_left a1.le hu
      nlinarith
    have : |y| < 1 / 100000 := by
      have : 0 ≤ μ := by
        have : 0 ≤ |y' - y| := abs_nonneg _
        nlinarith
      linarith
    exact ⟨⟨fun hh => absurd hlt (not_lt.2 hh.le), fun hh => absurd this (not_lt.2 (le_of_lt hh))⟩, ⟨fun _ => this, fun _ => hlt⟩⟩
  · have hgt : InDouble.epsi fl < |fl y'| := by
      have a1 : 1 / 100000 + 4 * u * (1 / 100000) < |y'| := by linarith
      have a3 : (1 - u) * (1 / 100000 + 4 * u * (1 / 100000)) < (1 - u) * |y'| :=
        mul_lt_mul_of_pos_left a1 (by linarith)
      nlinarith
    have : 1 / 100000 < |y| := by
      have : 0 ≤ μ := by
        have : 0 ≤ |y' - y| := abs_nonneg _
        nlinarith
      linarith
    exact ⟨⟨fun _ => this, fun _ => hgt⟩, ⟨fun hh => absurd hgt (not_lt.2 hh.le), fun hh => absurd this (not_lt.2 hh.le)⟩⟩

theorem diff_close {a b a' b' ε : K} (ha : |a' - a| ≤ ε) (hb : |b' - b| ≤ ε) : |(b' - a') - (b - a)| ≤ 2 * ε := by
  rw [abs_le] at ha hb ⊢
  constructor <;> linarith [ha.1, ha.2, hb.1, hb.2]

theorem ptSame_agree (h : Within fl u) {ε μ : K} (hμ : 2 * ε + 4 * u * (1 / 100000) ≤ μ) {d1 d2 d1' d2' : K}
    {c1 c2 c1' c2' : Coord K} (h1 : |d1' - d1| ≤ ε) (h2 : |d2' - d2| ≤ ε) (k1 : c1.Close ε c1') (k2 : c2.Close ε c2')
    (hd : ClearOf μ (d2 - d1)) (hc : (c2 - c1).Clear μ) :
    ptSame d1 c1 d2 c2 = InDouble.ptSame fl d1' c1' d2' c2' := by
  have e0 := (tolerance_agree h hμ (diff_close h1 h2) hd).1
  have e1 := (tolerance_agree h hμ (diff_close k1.x k2.x) hc.x).1
  have e2 := (tolerance_agree h hμ (diff_close k1.y k2.y) hc.y).1
  have e3 := (tolerance_agree h hμ (diff_close k1.z k2.z) hc.z).1
  unfold ptSame InDouble.ptSame epsi
  simp only [e0, e1, e2, e3]

/-- A component of a place, exact and rounded. -/
theorem comp_agree {δ x y d e d' e' : K} (hd : |d' - d| ≤ δ) (he : |e' - e| ≤ δ) (hx : SetApart δ x y d e)
    (h1 : x = y → d = e ∧ d' = e') : (d' < e' ↔ d < e) := by
  rcases hx with hx | hx
  · obtain ⟨rfl, rfl⟩ := h1 hx
    simp
  · rw [abs_le] at hd he
    rcases lt_abs.1 hx with hx | hx
    · constructor
      · intro h; linarith [hd.1, hd.2, he.1, he.2]
      · intro h; linarith [hd.1, hd.2, he.1, he.2]
    · constructor
      · intro _; linarith [hd.1, hd.2, he.1, he.2]
      · intro _; linarith [hd.1, hd.2, he.1, he.2]

theorem ptLt_agree (h : Within fl u) {ε δ μ : K} (hμ : 2 * ε + 4 * u * (1 / 100000) ≤ μ) {d1 d2 d1' d2' : K}
    {c1 c2 c1' c2' x1 x2 : Coord K} (h1 : |d1' - d1| ≤ ε) (h2 : |d2' - d2| ≤ ε) (k1 : c1.Close δ c1') (k2 : c2.Close δ c2')
    (hd : ClearOf μ (d2 - d1)) (ax : SetApart δ x1.x x2.x c1.x c2.x) (ay : SetApart δ x1.y x2.y c1.y c2.y)
    (az : SetApart δ x1.z x2.z c1.z c2.z) (sx : x1.x = x2.x → c1.x = c2.x ∧ c1'.x = c2'.x)
    (sy : x1.y = x2.y → c1.y = c2.y ∧ c1'.y = c2'.y) (sz : x1.z = x2.z → c1.z = c2.z ∧ c1'.z = c2'.z) :
    ptLt d1 c1 d2 c2 = InDouble.ptLt fl d1' c1' d2' c2' := by
  have e0 := (tolerance_agree h hμ (diff_close h1 h2) hd).2
  have swap : ∀ {x y d e : K}, SetApart δ x y d e → SetApart δ y x e d := by
    intro x y d e h
    rcases h with h | h
    · exact .inl h.symm
    · exact .inr (by rwa [abs_sub_comm])
  have ex := comp_agree k1.x k2.x ax sx
  have ex' := comp_agree k2.x k1.x (swap ax) fun h => ⟨(sx h.symm).1.symm, (sx h.symm).2.symm⟩
  have ey := comp_agree k1.y k2.y ay sy
  have ey' := comp_agree k2.y k1.y (swap ay) fun h => ⟨(sy h.symm).1.symm, (sy h.symm).2.symm⟩
  have ez := comp_agree k1.z k2.z az sz
  unfold ptLt InDouble.ptLt epsi
  by_cases hnear : |d2 - d1| < 1 / 100000
  · rw [if_pos hnear, if_pos (e0.2 hnear)]
    simp only [ex, ey, ez, gt_iff_lt, ex', ey']
  · rw [if_neg hnear, if_neg (fun hh => hnear (e0.1 hh))]
    have hε : 0 ≤ ε := le_trans (abs_nonneg _) h1
    have hμ0 : 2 * ε ≤ μ := by
      have := h.nonneg
      linarith
    have hgt : 1 / 100000 + μ < |d2 - d1| := by
      rcases hd with hd | hd
      · exact absurd (by have := h.nonneg; linarith) hnear
      · exact hd
    rw [abs_le] at h1 h2
    congr 1
    rw [eq_iff_iff]
    rcases lt_abs.1 hgt with hg | hg
    · constructor
      · intro _; linarith [h1.1, h1.2, h2.1, h2.2]
      · intro _; linarith [h1.1, h1.2, h2.1, h2.2]
    · constructor
      · intro _; linarith [h1.1, h1.2, h2.1, h2.2]
      · intro _; linarith [h1.1, h1.2, h2.1, h2.2]

/-- The difference of two stored components. -/
theorem sub_close (h : Within fl u) {B x y x' y' : K} (hx : |x| ≤ B) (hy : |y| ≤ B) (ex : |x' - x| ≤ 5 * u * B)
    (ey : |y' - y| ≤ 5 * u * B) : |fl (x' - y') - (x - y)| ≤ 14 * u * B ∧ |x - y| ≤ 2 * B := by
  have hB : 0 ≤ B := le_trans (abs_nonneg _) hx
  have hu := h.nonneg
  have hus := h.small
  have huB : 0 ≤ u * B := mul_nonneg hu hB
  have huB8 : u * B ≤ B / 8 := by nlinarith
  have b2 : |x - y| ≤ 2 * B := by
    rw [abs_le] at hx hy ⊢
    constructor <;> linarith [hx.1, hx.2, hy.1, hy.2]
  have b3 : |x' - y'| ≤ 13 / 4 * B := by
    rw [abs_le] at ex ey b2 ⊢
    constructor <;> linarith [ex.1, ex.2, ey.1, ey.2, b2.1, b2.2]
  have e3 := h.mul_le b3
  refine ⟨?_, b2⟩
  rw [abs_le] at ex ey e3 ⊢
  constructor <;> nlinarith [ex.1, ex.2, ey.1, ey.2, e3.1, e3.2]

theorem wrapComp_close (h : Within fl u) {B d d' : K} {rep : Nat} (hr : (rep : K) ≤ B) (hd : |d' - d| ≤ 14 * u * B) (hb : |d| ≤ 2 * B)
    (hh : 40 * u * B < |d - rep / 2| ∧ 40 * u * B < |d + rep / 2|) :
    |InDouble.wrapComp fl rep d' - LatticeMap.wrapComp rep d| ≤ 40 * u * B := by
  have hr0 : (0 : K) ≤ rep := Nat.cast_nonneg _
  have hB : 0 ≤ B := le_trans hr0 hr
  have hu := h.nonneg
  have hus := h.small
  have huB : 0 ≤ u * B := mul_nonneg hu hB
  have huB8 : u * B ≤ B / 8 := by nlinarith
  have hd' := abs_le.1 hd
  have hb' := abs_le.1 hb
  obtain ⟨h1, h2⟩ := hh
  unfold InDouble.wrapComp LatticeMap.wrapComp
  simp only [one_mul]
  by_cases c1 : d ≥ (rep : K) / 2
  · rw [if_pos c1, if_pos]
    · have e : |d' - rep| ≤ 4 * B := by
        rw [abs_le]
        rw [abs_of_nonneg (by linarith)] at h1
        constructor <;> nlinarith [hd'.1, hd'.2, hb'.1, hb'.2]
      have e3 := abs_le.1 (h.mul_le e)
      rw [abs_le]
      constructor <;> nlinarith [hd'.1, hd'.2, e3.1, e3.2]
    · rw [abs_of_nonneg (by linarith)] at h1
      show (rep : K) / 2 ≤ d'
      linarith [hd'.1]
  · rw [if_neg c1]
    rw [ge_iff_le, not_le] at c1
    rw [abs_of_neg (by linarith)] at h1
    rw [if_neg (not_le.2 (by linarith [hd'.2]))]
    by_cases c2 : d < -((rep : K) / 2)
    · rw [abs_of_neg (by linarith)] at h2
      rw [if_pos c2, if_pos (by linarith [hd'.2])]
      have e : |d' + rep| ≤ 4 * B := by
        rw [abs_le]
        constructor <;> nlinarith [hd'.1, hd'.2, hb'.1, hb'.2]
      have e3 := abs_le.1 (h.mul_le e)
      rw [abs_le]
      constructor <;> nlinarith [hd'.1, hd'.2, e3.1, e3.2]
    · rw [not_lt] at c2
      rw [abs_of_nonneg (by linarith)] at h2
      rw [if_neg (not_lt.2 c2), if_neg (not_lt.2 (by linarith [hd'.1]))]
      linarith

theorem InDouble.relCoord_eq (L : LatticeMap) (c center : Coord K) :
    InDouble.relCoord fl L c center = InDouble.wrap fl L (InDouble.sub fl c center) := by
  unfold InDouble.relCoord InDouble.wrap
  cases L.perA <;> cases L.perB <;> cases L.perC <;> simp

theorem axis_close (h : Within fl u) {B x y x' y' : K} {rep : Nat} {per : Bool} (hr : (rep : K) ≤ B) (hx : |x| ≤ B) (hy : |y| ≤ B)
    (ex : |x' - x| ≤ 5 * u * B) (ey : |y' - y| ≤ 5 * u * B) (hh : OffHalf (40 * u * B) per rep (x - y)) :
    |(if per = true then InDouble.wrapComp fl rep (fl (x' - y')) else fl (x' - y')) -
      (if per = true then LatticeMap.wrapComp rep (x - y) else x - y)| ≤ 40 * u * B := by
  obtain ⟨h1, h2⟩ := sub_close h hx hy ex ey
  have hB : 0 ≤ B := le_trans (abs_nonneg _) hx
  split
  · rename_i hp
    exact wrapComp_close h hr h1 h2 (hh hp)
  · have : 0 ≤ u * B := mul_nonneg h.nonneg hB
    linarith

variable {L : LatticeMap} {dist len : Coord K → K} {coords : List (Coord K)} {r : Nat} {procs procs' : List (Proc K)} {B μ ε : K} {R : Coord (K → K)}

/-- The relative coordinate of a neighbour, exact and rounded. -/
theorem Robust.close (hfl : Within fl u) (hR : Converts (5 * u * B) B R) (h : Robust (40 * u * B) μ B L dist coords r procs) {i a : Nat} {ci ca : Coord K}
    (hi : coords[i]? = some ci) (ha : coords[a]? = some ca) (hn : a ∈ L.neighbourIndices i r) :
    (L.wrap (ca - ci)).Close (40 * u * B) (InDouble.relCoord fl L (R.conv ca) (R.conv ci)) := by
  have bi := h.size ci (List.mem_of_getElem? hi)
  have ba := h.size ca (List.mem_of_getElem? ha)
  obtain ⟨k1, k2, k3⟩ := h.half i a ci ca hi ha hn
  rw [InDouble.relCoord_eq]
  exact ⟨axis_close hfl h.cells.1 ba.x bi.x (hR.x _ ba.x) (hR.x _ bi.x) k1, axis_close hfl h.cells.2.1 ba.y bi.y (hR.y _ ba.y) (hR.y _ bi.y) k2,
    axis_close hfl h.cells.2.2 ba.z bi.z (hR.z _ ba.z) (hR.z _ bi.z) k3⟩


theorem axis_bound {x y : K} {rep : Nat} {per : Bool} (hr : (rep : K) ≤ B) (hx : |x| ≤ B) (hy : |y| ≤ B) :
    |if per = true then LatticeMap.wrapComp rep (x - y) else x - y| ≤ 3 * B := by
  have hr0 : (0 : K) ≤ rep := Nat.cast_nonneg _
  rw [abs_le] at hx hy ⊢
  unfold LatticeMap.wrapComp
  simp only [one_mul]
  split
  · split
    · constructor <;> linarith [hx.1, hx.2, hy.1, hy.2]
    · split <;> constructor <;> linarith [hx.1, hx.2, hy.1, hy.2]
  · constructor <;> linarith [hx.1, hx.2, hy.1, hy.2]

theorem Robust.bound {δ : K} (h : Robust δ μ B L dist coords r procs) {i a : Nat} {ci ca : Coord K} (hi : coords[i]? = some ci)
    (ha : coords[a]? = some ca) : (L.wrap (ca - ci)).Bounded (3 * B) := by
  have bi := h.size ci (List.mem_of_getElem? hi)
  have ba := h.size ca (List.mem_of_getElem? ha)
  exact ⟨axis_bound h.cells.1 ba.x bi.x, axis_bound h.cells.2.1 ba.y bi.y, axis_bound h.cells.2.2 ba.z bi.z⟩

theorem Coord.Close.mono {δ δ' : K} {c c' : Coord K} (h : c.Close δ c') (hd : δ ≤ δ') : c.Close δ' c' :=
  ⟨le_trans h.x hd, le_trans h.y hd, le_trans h.z hd⟩

theorem placeOf_eq {i a : Nat} {ci ca : Coord K} (hi : coords[i]? = some ci) (ha : coords[a]? = some ca) :
    placeOf dist L coords i a = (dist (L.wrap (ca - ci)), L.wrap (ca - ci)) := by
  unfold placeOf
  rw [getD_of hi, getD_of ha, Config.relCoord_eq]

theorem placeOf'_eq {i a : Nat} {ci ca : Coord K} (hi : coords[i]? = some ci) (ha : coords[a]? = some ca) :
    placeOf' fl len L (coords.map (Coord.conv R)) i a =
      (len (InDouble.relCoord fl L (R.conv ca) (R.conv ci)), InDouble.relCoord fl L (R.conv ca) (R.conv ci)) := by
  unfold placeOf'
  rw [getD_of (a := R.conv ca) (by rw [List.getElem?_map, ha]; rfl),
    getD_of (a := R.conv ci) (by rw [List.getElem?_map, hi]; rfl)]

/-- Processes whose points differ by at most `ε`. -/
def PointsClose (ε : K) (procs procs' : List (Proc K)) : Prop :=
  ∀ (j : Nat) (p q : Proc K) (k : Nat) (e e' : PEntry K), procs[j]? = some p → procs'[j]? = some q → p.matchList[k]? = some e →
    q.matchList[k]? = some e' → |e'.distance - e.distance| ≤ ε ∧ e.coord.Close ε e'.coord

theorem Robust.seesAlike (hfl : Within fl u) (hR : Converts (5 * u * B) B R) (h : Robust (40 * u * B) μ B L dist coords r procs) (hL : L.WF)
    (hn : coords.length = L.nSites) (hlen : LengthClose (40 * u * B) ε (3 * B) dist len) (hε : 40 * u * B ≤ ε)
    (hμ : 2 * ε + 4 * u * (1 / 100000) ≤ μ) (hp : PointsClose ε procs procs') :
    SeesAlike fl L dist len coords (coords.map (Coord.conv R)) r procs procs' := by
  have get : ∀ i, i < L.nSites → ∃ c, coords[i]? = some c := fun i hi => ⟨_, List.getElem?_eq_getElem (hn ▸ hi)⟩
  constructor
  · intro i a b hi ha hb
    rw [hn] at hi
    obtain ⟨ci, ei⟩ := get i hi
    obtain ⟨ca, ea⟩ := get a ((LatticeMap.mem_neighbourIndices L hL i a r hi).1 ha).1
    obtain ⟨cb, eb⟩ := get b ((LatticeMap.mem_neighbourIndices L hL i b r hi).1 hb).1
    rw [placeOf_eq ei ea, placeOf_eq ei eb, placeOf'_eq ei ea, placeOf'_eq ei eb]
    have k1 := h.close hfl hR ei ea ha
    have k2 := h.close hfl hR ei eb hb
    obtain ⟨ax, ay, az⟩ := h.apart i a b ci ca cb ei ea eb ha hb
    rw [InDouble.relCoord_eq, InDouble.relCoord_eq] at *
    refine ptLt_agree hfl hμ (hlen _ _ (h.bound ei ea) k1) (hlen _ _ (h.bound ei eb) k2) k1 k2 (h.distances i a b ci ca cb ei ea eb ha hb) ax ay az ?_ ?_ ?_
    · intro he
      simp only [LatticeMap.wrap, InDouble.wrap, InDouble.sub, Coord.conv, Coord.sub_x, he, and_self]
    · intro he
      simp only [LatticeMap.wrap, InDouble.wrap, InDouble.sub, Coord.conv, Coord.sub_y, he, and_self]
    · intro he
      simp only [LatticeMap.wrap, InDouble.wrap, InDouble.sub, Coord.conv, Coord.sub_z, he, and_self]
  · intro j p q k e e' i a hj hj' hk hk' hi ha
    rw [hn] at hi
    obtain ⟨ci, ei⟩ := get i hi
    obtain ⟨ca, ea⟩ := get a ((LatticeMap.mem_neighbourIndices L hL i a r hi).1 ha).1
    rw [placeOf_eq ei ea, placeOf'_eq ei ea]
    have k1 := h.close hfl hR ei ea ha
    obtain ⟨p1, p2⟩ := hp j p q k e e' hj hj' hk hk'
    obtain ⟨q1, q2⟩ := h.points p (List.mem_of_getElem? hj) e (List.mem_of_getElem? hk) i a ci ca ei ea ha
    exact ptSame_agree hfl hμ p1 (hlen _ _ (h.bound ei ea) k1) p2 (k1.mono hε) q1 q2

end
end KMC

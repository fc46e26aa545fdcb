import Verif.Props.Stored

/-!
# Property C61 for the check of move vectors

The front end calculates the move vectors that are not given, and tries all of them on the stored points. The sums and differences
are rounded, and the target of a move has to be within 0.00000001 of a point.
-/

set_option linter.unusedSectionVars false

namespace KMC

variable {K : Type} [Field K] [LinearOrder K] [IsStrictOrderedRing K] [FloorRing K] {fl : K → K} {u B : K} {R : Coord (K → K)}
  {coords : List (Coord K)} {before after : List String}

/-- The same atom moves by nearly the same vector. -/
def NearMove (δ : K) (m m' : Int × Coord K) : Prop := m.1 = m'.1 ∧ m.2.Close δ m'.2

/-- The sum of the components' sizes is not within `μ` of the tolerance. -/
def LandsClearly (μ : K) (c : Coord K) : Prop :=
  |c.x| + |c.y| + |c.z| < 1 / 100000000 - μ ∨ 1 / 100000000 + μ < |c.x| + |c.y| + |c.z|

theorem pyGet_map {α β : Type} (f : α → β) (l : List α) (i : Int) :
    Both (fun a b => a ∈ l ∧ b = f a) (PyProc.pyGet l i) (PyProc.pyGet (l.map f) i) := by
  unfold PyProc.pyGet
  rw [List.length_map]
  cases PyProc.pyIndex l.length i with
  | error e => exact .inl ⟨e, rfl, rfl⟩
  | ok j =>
    rw [ok_bind, ok_bind, List.getElem?_map]
    cases h : l[j]? with
    | none => exact .inl ⟨_, rfl, rfl⟩
    | some x => exact .inr ⟨x, f x, rfl, rfl, List.mem_of_getElem? h, rfl⟩

/-- C61: the move vectors that the front end finds by itself are found from the stored points too, and are close to the exact ones.
Nothing is found from the stored points when nothing is found from the exact ones. -/
theorem C61_moves (h : Within fl u) (hR : Converts (5 * u * B) B R) (hc : ∀ c ∈ coords, c.Bounded B)
    (hd : ∀ c ∈ coords, ∀ d ∈ coords, (d - c).Bounded B) :
    Both (Option.Rel (List.Forall₂ (NearMove (13 * u * B)))) (PyProc.reconstruct coords before after)
      (InDouble.reconstruct fl (coords.map R.conv) before after) := by
  unfold PyProc.reconstruct InDouble.reconstruct
  generalize PyProc.differing before after = l
  rcases l with _ | ⟨i, _ | ⟨j, _ | ⟨_, _⟩⟩⟩
  · exact .inr ⟨_, _, rfl, rfl, .none⟩
  · exact .inr ⟨_, _, rfl, rfl, .none⟩
  · dsimp only
    split
    · refine (pyGet_map R.conv coords i).bind fun a a' ⟨ha, ea⟩ => (pyGet_map R.conv coords j).bind fun b b' ⟨hb, eb⟩ => ?_
      rw [ea, eb]
      exact .inr ⟨_, _, rfl, rfl, .some (.cons ⟨rfl, C61_move_error h hR (hc a ha) (hc b hb) (hd a ha b hb)⟩
        (.cons ⟨rfl, C61_move_error h hR (hc b hb) (hc a ha) (hd b hb a ha)⟩ .nil))⟩
    · exact .inr ⟨_, _, rfl, rfl, .none⟩
  · exact .inr ⟨_, _, rfl, rfl, .none⟩

theorem taxi_error (h : Within fl u) (hB : 0 ≤ B) {c c' : Coord K} (hc : c.Bounded (3 * B)) (hcc : c.Close (35 * u * B) c') :
    |InDouble.taxi fl c' - (|c.x| + |c.y| + |c.z|)| ≤ 155 * u * B := by
  have huB : 0 ≤ u * B := mul_nonneg h.nonneg hB
  have hus : u * B ≤ 1 / 8 * B := mul_le_mul_of_nonneg_right h.small hB
  have ex := le_trans (abs_abs_sub_abs_le c'.x c.x) hcc.x
  have ey := le_trans (abs_abs_sub_abs_le c'.y c.y) hcc.y
  have ez := le_trans (abs_abs_sub_abs_le c'.z c.z) hcc.z
  have px := hc.x
  have py := hc.y
  have pz := hc.z
  have qx := abs_nonneg c.x
  have qy := abs_nonneg c.y
  have qz := abs_nonneg c.z
  unfold InDouble.taxi
  generalize |c'.x| = x' at ex ⊢
  generalize |c'.y| = y' at ey ⊢
  generalize |c'.z| = z' at ez ⊢
  generalize |c.x| = x at ex px qx ⊢
  generalize |c.y| = y at ey py qy ⊢
  generalize |c.z| = z at ez pz qz ⊢
  rw [abs_le] at ex ey ez
  have e1 := h.mul_le (x := 0 + x') (B := 8 * B) (by rw [abs_le]; constructor <;> linarith)
  rw [abs_le] at e1
  have e2 := h.mul_le (x := fl (0 + x') + y') (B := 16 * B) (by rw [abs_le]; constructor <;> linarith)
  rw [abs_le] at e2
  have e3 := h.mul_le (x := fl (fl (0 + x') + y') + z') (B := 26 * B) (by rw [abs_le]; constructor <;> linarith)
  rw [abs_le] at e3 ⊢
  constructor <;> linarith

theorem landing_error (h : Within fl u) (hR : Converts (5 * u * B) B R) {c old v v' : Coord K} (hc : c.Bounded B) (ho : old.Bounded B)
    (hv : v.Bounded B) (hvv : v.Close (13 * u * B) v') :
    (c - (old + v)).Bounded (3 * B) ∧
      (c - (old + v)).Close (35 * u * B) (InDouble.sub fl (R.conv c) (InDouble.add fl (R.conv old) v')) := by
  have hB : 0 ≤ B := le_trans (abs_nonneg _) hc.x
  have huB : 0 ≤ u * B := mul_nonneg h.nonneg hB
  have hus : u * B ≤ 1 / 8 * B := mul_le_mul_of_nonneg_right h.small hB
  have key : ∀ c o v c' o' v' : K, |c| ≤ B → |o| ≤ B → |v| ≤ B → |c' - c| ≤ 5 * u * B → |o' - o| ≤ 5 * u * B →
      |v' - v| ≤ 13 * u * B → |c - (o + v)| ≤ 3 * B ∧ |fl (c' - fl (o' + v')) - (c - (o + v))| ≤ 35 * u * B := by
    intro c o v c' o' v' h1 h2 h3 h4 h5 h6
    rw [abs_le] at h1 h2 h3 h4 h5 h6
    have e1 := h.mul_le (x := o' + v') (B := 5 * B) (by rw [abs_le]; constructor <;> linarith)
    rw [abs_le] at e1
    have e2 := h.mul_le (x := c' - fl (o' + v')) (B := 7 * B) (by rw [abs_le]; constructor <;> linarith)
    rw [abs_le] at e2 ⊢
    rw [abs_le]
    refine ⟨⟨?_, ?_⟩, ?_, ?_⟩ <;> linarith
  have kx := key _ _ _ _ _ _ hc.x ho.x hv.x (hR.x _ hc.x) (hR.x _ ho.x) hvv.x
  have ky := key _ _ _ _ _ _ hc.y ho.y hv.y (hR.y _ hc.y) (hR.y _ ho.y) hvv.y
  have kz := key _ _ _ _ _ _ hc.z ho.z hv.z (hR.z _ hc.z) (hR.z _ ho.z) hvv.z
  exact ⟨⟨kx.1, ky.1, kz.1⟩, ⟨kx.2, ky.2, kz.2⟩⟩

theorem findIdx?_congr {α : Type} {p q : α → Bool} : ∀ {l : List α}, (∀ x ∈ l, p x = q x) → l.findIdx? p = l.findIdx? q
  | [], _ => rfl
  | x :: l, h => by
    rw [List.findIdx?_cons, List.findIdx?_cons, findIdx?_congr fun y hy => h y (List.mem_cons_of_mem _ hy)]
    simp [h x List.mem_cons_self]

/-- The target of a move is the same point. -/
theorem landing_same (h : Within fl u) (hR : Converts (5 * u * B) B R) (hc : ∀ c ∈ coords, c.Bounded B) {old v v' : Coord K}
    (ho : old.Bounded B) (hv : v.Bounded B) (hvv : v.Close (13 * u * B) v') {μ : K} (hμ : 155 * u * B + u * (1 / 100000000) ≤ μ)
    (hl : ∀ c ∈ coords, LandsClearly μ (c - (old + v))) :
    InDouble.landing fl (coords.map R.conv) (InDouble.add fl (R.conv old) v') = PyProc.landing coords (old + v) := by
  unfold InDouble.landing PyProc.landing
  rw [List.findIdx?_map]
  have hB : 0 ≤ B := le_trans (abs_nonneg _) ho.x
  have ht := h.mul_le (x := 1 / 100000000) (B := 1 / 100000000) (by rw [abs_of_pos (by norm_num)])
  have key : ∀ c ∈ coords, decide (InDouble.taxi fl (InDouble.sub fl (R.conv c) (InDouble.add fl (R.conv old) v')) < fl (1 / 100000000))
      = decide (PyProc.taxi (c - (old + v)) < 1 / 100000000) := by
    intro c hcm
    obtain ⟨k1, k2⟩ := landing_error h hR (hc c hcm) ho hv hvv
    have e := taxi_error h hB k1 k2
    have hx := hl c hcm
    unfold LandsClearly at hx
    have hu0 : 0 ≤ u * (1 / 100000000) := mul_nonneg h.nonneg (by norm_num)
    have huB : 0 ≤ u * B := mul_nonneg h.nonneg hB
    rw [decide_eq_decide]
    unfold PyProc.taxi
    rw [abs_le] at e ht
    rcases hx with hx | hx
    · constructor
      · intro _; linarith
      · intro _; linarith
    · constructor
      · intro _; linarith
      · intro _; linarith
  exact findIdx?_congr key

/-- C61: rounding does not change which move vectors the front end accepts, if no target of a move is within `155 u B` (and the
error of the tolerance itself) of the tolerance. With the stored points the constructor fails in the same cases with the same
exception, and keeps nearly the same vectors otherwise. -/
theorem C61_moves_checked (h : Within fl u) (hR : Converts (5 * u * B) B R) (hc : ∀ c ∈ coords, c.Bounded B)
    (hd : ∀ c ∈ coords, ∀ d ∈ coords, (d - c).Bounded B) {moves moves' : Option (List (Int × Coord K))}
    (hm : Option.Rel (List.Forall₂ (NearMove (13 * u * B))) moves moves') {μ : K} (hμ : 155 * u * B + u * (1 / 100000000) ≤ μ)
    (hl : ∀ ms, (moves = some ms ∨ moves = none ∧ PyProc.reconstruct coords before after = .ok (some ms)) →
      ∀ m ∈ ms, m.2.Bounded B ∧ ∀ o, PyProc.pyGet coords m.1 = .ok o → ∀ c ∈ coords, LandsClearly μ (c - (o + m.2))) :
    Both (List.Forall₂ (NearMove (13 * u * B))) (PyProc.checkMoves coords before after moves)
      (InDouble.checkMoves fl (coords.map R.conv) before after moves') := by
  have tries : ∀ ms ms', List.Forall₂ (NearMove (13 * u * B)) ms ms' →
      (∀ m ∈ ms, m.2.Bounded B ∧ ∀ o, PyProc.pyGet coords m.1 = .ok o → ∀ c ∈ coords, LandsClearly μ (c - (o + m.2))) →
      ∀ l, loopM (PyProc.tryMove coords before after) ms l = loopM (InDouble.tryMove fl (coords.map R.conv) before after) ms' l := by
    intro ms ms' hmm
    induction hmm with
    | nil => intros; rfl
    | @cons m m' ms ms' h1 _ ih =>
      intro hl l
      obtain ⟨i, v⟩ := m
      obtain ⟨i', v'⟩ := m'
      obtain ⟨h1, h2⟩ := h1
      have h1 : i = i' := h1
      subst h1
      rw [loopM_cons, loopM_cons]
      have e : PyProc.tryMove coords before after l (i, v) = InDouble.tryMove fl (coords.map R.conv) before after l (i, v') := by
        unfold PyProc.tryMove InDouble.tryMove
        rcases hp : pyGet_map R.conv coords i with ⟨e, e1, e2⟩ | ⟨o, o', e1, e2, hom, rfl⟩
        · rw [e1, e2]
          rfl
        · rw [e1, e2, ok_bind, ok_bind]
          obtain ⟨k1, k2⟩ := hl (i, v) List.mem_cons_self
          rw [landing_same h hR hc (hc o hom) k1 h2 hμ (k2 o e1)]
          cases PyProc.landing coords (o + v) <;> rfl
      rw [e]
      congr 1
      funext l'
      exact ih (fun m hm => hl m (List.mem_cons_of_mem _ hm)) l'
  have last : ∀ o o', Option.Rel (List.Forall₂ (NearMove (13 * u * B))) o o' →
      (∀ ms, o = some ms → ∀ m ∈ ms, m.2.Bounded B ∧ ∀ o, PyProc.pyGet coords m.1 = .ok o → ∀ c ∈ coords, LandsClearly μ (c - (o + m.2))) →
      Both (List.Forall₂ (NearMove (13 * u * B)))
        (match o with
          | none => .ok []
          | some ms => do
            let moved ← loopM (PyProc.tryMove coords before after) ms before
            if after ≠ moved then .error .exception else return ms)
        (match o' with
          | none => .ok []
          | some ms => do
            let moved ← loopM (InDouble.tryMove fl (coords.map R.conv) before after) ms before
            if after ≠ moved then .error .exception else return ms) := by
    intro o o' hoo hl
    cases hoo with
    | none => exact .inr ⟨[], [], rfl, rfl, .nil⟩
    | @some ms ms' hmm =>
      show Both _ (loopM _ ms before >>= _) (loopM _ ms' before >>= _)
      rw [tries ms ms' hmm (hl ms rfl) before]
      cases loopM (InDouble.tryMove fl (coords.map R.conv) before after) ms' before with
      | error e => exact .inl ⟨e, rfl, rfl⟩
      | ok moved =>
        rw [ok_bind, ok_bind]
        split
        · exact .inl ⟨_, rfl, rfl⟩
        · exact .inr ⟨ms, ms', rfl, rfl, hmm⟩
  unfold PyProc.checkMoves InDouble.checkMoves
  cases hm with
  | some hmm =>
    exact last _ _ (.some hmm) fun ms e => hl ms (.inl e)
  | none =>
    rcases C61_moves h hR hc hd (before := before) (after := after) with ⟨e, e1, e2⟩ | ⟨o, o', e1, e2, hoo⟩
    · refine .inl ⟨e, ?_, ?_⟩
      · dsimp only
        rw [e1]
        rfl
      · dsimp only
        rw [e2]
        rfl
    · dsimp only
      rw [e1, e2]
      exact last o o' hoo fun ms e => hl ms (.inr ⟨rfl, e ▸ e1⟩)

/-- C61: move vectors that are not given are accepted whatever the rounding, if different points are further apart than the
tolerance. -/
theorem C61_found_accepted (h : Within fl u) (hR : Converts (5 * u * B) B R) (hc : ∀ c ∈ coords, c.Bounded B)
    (hd : ∀ c ∈ coords, ∀ d ∈ coords, (d - c).Bounded B) {μ : K} (hμ : 155 * u * B + u * (1 / 100000000) ≤ μ)
    (hμ1 : μ < 1 / 100000000)
    (hapart : ∀ c ∈ coords, ∀ d ∈ coords, c ≠ d → 1 / 100000000 + μ < |c.x - d.x| + |c.y - d.y| + |c.z - d.z|) :
    Both (List.Forall₂ (NearMove (13 * u * B))) (PyProc.checkMoves coords before after none)
      (InDouble.checkMoves fl (coords.map R.conv) before after none) := by
  refine C61_moves_checked h hR hc hd .none hμ fun ms hms m hm => ?_
  rcases hms with hms | ⟨-, hms⟩
  · cases hms
  unfold PyProc.reconstruct at hms
  split at hms
  · rename_i i j _
    split at hms
    · obtain ⟨a, ha, hms⟩ := bind_ok.1 hms
      obtain ⟨b, hb, hms⟩ := bind_ok.1 hms
      cases hms
      have mem : ∀ {k : Int} {x : Coord K}, PyProc.pyGet coords k = .ok x → x ∈ coords := by
        intro k x hk
        rcases pyGet_map (id : Coord K → Coord K) coords k with ⟨e, e1, -⟩ | ⟨y, -, e1, -, hy, -⟩
        · rw [hk] at e1; cases e1
        · rw [hk] at e1; cases e1; exact hy
      have clear : ∀ x ∈ coords, ∀ c ∈ coords, LandsClearly μ (c - x) := by
        intro x hx c hcm
        by_cases e : c = x
        · left
          have ex : c.x - x.x = 0 := by rw [e, sub_self]
          have ey : c.y - x.y = 0 := by rw [e, sub_self]
          have ez : c.z - x.z = 0 := by rw [e, sub_self]
          show |c.x - x.x| + |c.y - x.y| + |c.z - x.z| < _
          rw [ex, ey, ez, abs_zero]
          linarith
        · exact .inr (hapart c hcm x hx e)
      have back : ∀ p q : Coord K, p + (q - p) = q := by
        intro p q
        show Coord.mk (p.x + (q.x - p.x)) (p.y + (q.y - p.y)) (p.z + (q.z - p.z)) = q
        simp
      rcases List.mem_cons.1 hm with rfl | hm
      · refine ⟨hd a (mem ha) b (mem hb), fun o ho c hcm => ?_⟩
        rw [ha] at ho
        cases ho
        rw [back]
        exact clear b (mem hb) c hcm
      · rw [List.mem_singleton.1 hm]
        refine ⟨hd b (mem hb) a (mem ha), fun o ho c hcm => ?_⟩
        rw [hb] at ho
        cases ho
        rw [back]
        exact clear a (mem ha) c hcm
    · cases hms
  · cases hms

/-- C61: without the margin the outcome can change. A move by 1.00000001 misses the point at distance 1 by the tolerance exactly,
and is refused; in double precision the vector is rounded, and it is accepted. -/
theorem C61_moves_margin :
    PyProc.checkMoves [⟨0, 0, 0⟩, ⟨1, 0, 0⟩] ["A", "B"] ["B", "A"] (some [(0, ⟨100000001 / 100000000, 0, 0⟩), (1, ⟨-1, 0, (0 : ℚ)⟩)]) =
      .error .exception ∧
    InDouble.checkMoves toDouble [⟨0, 0, 0⟩, ⟨1, 0, 0⟩] ["A", "B"] ["B", "A"]
        (some [(0, ⟨toDouble (100000001 / 100000000), 0, 0⟩), (1, ⟨-1, 0, 0⟩)]) =
      .ok [(0, ⟨toDouble (100000001 / 100000000), 0, 0⟩), (1, ⟨-1, 0, 0⟩)] := by
  decide +kernel

/-- The conditions hold for two points at distance 1/3 in double precision, and the vectors are found. -/
example : PyProc.checkMoves [⟨0, 0, 0⟩, ⟨1 / 3, 0, (0 : ℚ)⟩] ["A", "B"] ["B", "A"] none = .ok [(0, ⟨1 / 3, 0, 0⟩), (1, ⟨-1 / 3, 0, 0⟩)] ∧
    Both (List.Forall₂ (NearMove (13 * (1 / 2 ^ 53) * 1)))
      (PyProc.checkMoves [⟨0, 0, 0⟩, ⟨1 / 3, 0, (0 : ℚ)⟩] ["A", "B"] ["B", "A"] none)
      (InDouble.checkMoves toDouble
        ([⟨0, 0, 0⟩, ⟨1 / 3, 0, (0 : ℚ)⟩].map (Coord.conv ⟨toDouble, toDouble, toDouble⟩)) ["A", "B"] ["B", "A"] none) := by
  refine ⟨by decide +kernel, C61_found_accepted (C61_double toDouble_rounding) (C61_rounded (C61_double toDouble_rounding) (by norm_num) (by norm_num))
    ?_ ?_ (μ := 1 / 1000000000) (by norm_num) (by norm_num) ?_⟩
  · intro c hc
    rcases List.mem_cons.1 hc with rfl | hc
    · exact ⟨by norm_num, by norm_num, by norm_num⟩
    · rw [List.mem_singleton.1 hc]
      exact ⟨by norm_num [abs_le], by norm_num, by norm_num⟩
  · have h : ∀ c ∈ [(⟨0, 0, 0⟩ : Coord ℚ), ⟨1 / 3, 0, 0⟩], ∀ d ∈ [(⟨0, 0, 0⟩ : Coord ℚ), ⟨1 / 3, 0, 0⟩],
        |(d - c).x| ≤ 1 ∧ |(d - c).y| ≤ 1 ∧ |(d - c).z| ≤ 1 := by decide +kernel
    exact fun c hc d hd => ⟨(h c hc d hd).1, (h c hc d hd).2.1, (h c hc d hd).2.2⟩
  · decide +kernel

end KMC

import Verif.Lemmas.Approx

/-!
# Errors in the points of processes
-/

set_option linter.unusedSectionVars false

namespace KMC

variable {K : Type} [Field K] [LinearOrder K] [IsStrictOrderedRing K] [FloorRing K]

variable {fl : K → K} {u B ε μ : K} {R Q : Coord (K → K)} {dist len : Coord K → K}

/-- The entries of a process, exact and rounded: the same apart from their places. -/
structure PointTwins (fl : K → K) (R Q : Coord (K → K)) (dist len : Coord K → K) (o : Coord K) (coords : List (Coord K)) (moves : List (Nat × Coord K))
    (e e' : PEntry K) : Prop where
  bare : e.bare = e'.bare
  mem : e.coord ∈ coords
  coord : e'.coord = R.conv e.coord
  dist : e.distance = dist (e.coord - o)
  len : e'.distance = len (InDouble.sub fl e'.coord (R.conv o))
  move : e.hasMove = true → e'.moveCoord = Q.conv e.moveCoord
  moves : e.hasMove = true → ∃ m ∈ moves, m.2 = e.moveCoord

variable {coords : List (Coord K)} {o : Coord K} {moves : List (Nat × Coord K)}

theorem PointTwins.close (hfl : Within fl u) (hR : Converts (5 * u * B) B R) (hB : ∀ c ∈ coords, c.Bounded B) (ho : o ∈ coords)
    {e e' : PEntry K} (h : PointTwins fl R Q dist len o coords moves e e')
    (hlen : LengthClose (40 * u * B) ε (3 * B) dist len) (hε : 40 * u * B ≤ ε) :
    |e'.distance - e.distance| ≤ ε ∧ e.coord.Close (40 * u * B) e'.coord := by
  have be := hB _ h.mem
  have bo := hB _ ho
  have hB0 : 0 ≤ B := le_trans (abs_nonneg _) bo.x
  have huB : 0 ≤ u * B := mul_nonneg hfl.nonneg hB0
  obtain ⟨x1, x2⟩ := sub_close hfl be.x bo.x (hR.x _ be.x) (hR.x _ bo.x)
  obtain ⟨y1, y2⟩ := sub_close hfl be.y bo.y (hR.y _ be.y) (hR.y _ bo.y)
  obtain ⟨z1, z2⟩ := sub_close hfl be.z bo.z (hR.z _ be.z) (hR.z _ bo.z)
  refine ⟨?_, ?_⟩
  · rw [h.len, h.dist, h.coord]
    refine hlen _ _ ⟨?_, ?_, ?_⟩ ⟨?_, ?_, ?_⟩
    · exact le_trans x2 (by linarith)
    · exact le_trans y2 (by linarith)
    · exact le_trans z2 (by linarith)
    · exact le_trans x1 (by linarith)
    · exact le_trans y1 (by linarith)
    · exact le_trans z1 (by linarith)
  · rw [h.coord]
    exact ⟨le_trans (hR.x _ be.x) (by linarith), le_trans (hR.y _ be.y) (by linarith), le_trans (hR.z _ be.z) (by linarith)⟩

theorem target_close (hfl : Within fl u) {x y m x' y' m' : K} (hx : |x| ≤ B) (hy : |y| ≤ B) (hm : |m| ≤ B)
    (ex : |x' - x| ≤ 5 * u * B) (ey : |y' - y| ≤ 5 * u * B) (em : |m' - m| ≤ 13 * u * B) :
    |fl (x' - fl (y' + m')) - (x - (y + m))| ≤ 40 * u * B ∧ |x - (y + m)| ≤ 3 * B := by
  have hB : 0 ≤ B := le_trans (abs_nonneg _) hx
  have hu := hfl.nonneg
  have hus := hfl.small
  have huB : 0 ≤ u * B := mul_nonneg hu hB
  have huB8 : u * B ≤ B / 8 := by nlinarith
  have b1 : |y' + m'| ≤ 17 / 4 * B := by
    rw [abs_le] at ey hy hm em ⊢
    constructor <;> linarith [ey.1, ey.2, hy.1, hy.2, hm.1, hm.2, em.1, em.2]
  have e3 := hfl.mul_le b1
  have b2 : |x' - fl (y' + m')| ≤ 7 * B := by
    rw [abs_le] at ex ey e3 hx hy hm em b1 ⊢
    constructor <;> linarith [ex.1, ex.2, e3.1, e3.2, hx.1, hx.2, b1.1, b1.2]
  have e4 := hfl.mul_le b2
  rw [abs_le] at ex ey em e3 e4 hx hy hm
  rw [abs_le, abs_le]
  refine ⟨⟨?_, ?_⟩, ?_, ?_⟩
  · linarith [ex.1, ex.2, ey.1, ey.2, e3.1, e3.2, e4.1, e4.2, em.1, em.2]
  · linarith [ex.1, ex.2, ey.1, ey.2, e3.1, e3.2, e4.1, e4.2, em.1, em.2]
  · linarith [hx.1, hx.2, hy.1, hy.2, hm.1, hm.2]
  · linarith [hx.1, hx.2, hy.1, hy.2, hm.1, hm.2]

/-- Whether a move vector leads from one point to another comes out right. -/
theorem target_agree (hfl : Within fl u) (hR : Converts (5 * u * B) B R) (hQ : Converts (13 * u * B) B Q) {a b m : Coord K} (ha : a.Bounded B) (hb : b.Bounded B) (hm : m.Bounded B)
    (hlen : LengthClose (40 * u * B) ε (3 * B) dist len) (hμ : 2 * ε + 4 * u * (1 / 100000) ≤ μ)
    (hc : dist (b - (a + m)) < 1 / 1000000 - μ ∨ 1 / 1000000 + μ < dist (b - (a + m))) :
    (len (InDouble.sub fl (R.conv b) (InDouble.add fl (R.conv a) (Q.conv m))) < fl (1 / 1000000) ↔
      dist (b - (a + m)) < 1 / 1000000) := by
  obtain ⟨x1, x2⟩ := target_close hfl hb.x ha.x hm.x (hR.x _ hb.x) (hR.x _ ha.x) (hQ.x _ hm.x)
  obtain ⟨y1, y2⟩ := target_close hfl hb.y ha.y hm.y (hR.y _ hb.y) (hR.y _ ha.y) (hQ.y _ hm.y)
  obtain ⟨z1, z2⟩ := target_close hfl hb.z ha.z hm.z (hR.z _ hb.z) (hR.z _ ha.z) (hQ.z _ hm.z)
  have hl : |len (InDouble.sub fl (R.conv b) (InDouble.add fl (R.conv a) (Q.conv m))) - dist (b - (a + m))| ≤ ε :=
    hlen _ _ ⟨x2, y2, z2⟩ ⟨x1, y1, z1⟩
  have hε : 0 ≤ ε := le_trans (abs_nonneg _) hl
  have ht := hfl.mul_le (x := 1 / 1000000) (B := 1 / 1000000) (by rw [abs_of_pos (by norm_num)])
  have hu := hfl.nonneg
  rw [abs_le] at hl ht
  constructor
  · intro h
    rcases hc with hc | hc
    · linarith
    · exfalso
      linarith [hl.1, hl.2, ht.1, ht.2]
  · intro h
    rcases hc with hc | hc
    · linarith [hl.1, hl.2, ht.1, ht.2]
    · exfalso
      linarith [hl.1, hl.2, ht.1, ht.2]

theorem forall₂_get? {α β : Type} {R : α → β → Prop} {l : List α} {l' : List β} (h : List.Forall₂ R l l') (i : Nat) :
    (l[i]? = none ∧ l'[i]? = none) ∨ ∃ a b, l[i]? = some a ∧ l'[i]? = some b ∧ R a b := by
  induction h generalizing i with
  | nil => exact .inl ⟨rfl, rfl⟩
  | @cons a b l l' hab _ ih =>
    cases i with
    | zero => exact .inr ⟨a, b, rfl, rfl, hab⟩
    | succ i => simpa using ih i

theorem moveTarget_agree {l l' : List (PEntry K)} (h : List.Forall₂ (PointTwins fl R Q dist len o coords moves) l l') {e e' : PEntry K}
    (ht : ∀ f f', PointTwins fl R Q dist len o coords moves f f' →
      (len (InDouble.sub fl f'.coord (InDouble.add fl e'.coord e'.moveCoord)) < fl (1 / 1000000) ↔
        dist (f.coord - (e.coord + e.moveCoord)) < 1 / 1000000)) (i : Nat) :
    InDouble.moveTarget fl len l' i e' = moveTarget dist l i e := by
  unfold InDouble.moveTarget moveTarget
  rw [← h.length_eq]
  congr 1
  funext j
  rcases forall₂_get? h j with ⟨h1, h2⟩ | ⟨f, f', h1, h2, h3⟩
  · rw [h1, h2]
  · rw [h1, h2]
    have hm : f'.hasMove = f.hasMove := (congrArg PEntry.hasMove h3.bare :).symm
    dsimp only
    rw [hm]
    congr 1
    exact decide_eq_decide.2 (ht f f' h3)

theorem idMovesOf_agree {l l' : List (PEntry K)} (h : List.Forall₂ (PointTwins fl R Q dist len o coords moves) l l')
    (ht : ∀ e e', PointTwins fl R Q dist len o coords moves e e' → e.hasMove = true → ∀ f f', PointTwins fl R Q dist len o coords moves f f' →
      (len (InDouble.sub fl f'.coord (InDouble.add fl e'.coord e'.moveCoord)) < fl (1 / 1000000) ↔
        dist (f.coord - (e.coord + e.moveCoord)) < 1 / 1000000)) :
    InDouble.idMovesOf fl len l' = idMovesOf dist l := by
  unfold InDouble.idMovesOf idMovesOf
  rw [← h.length_eq]
  congr 1
  funext i
  rcases forall₂_get? h i with ⟨h1, h2⟩ | ⟨e, e', h1, h2, h3⟩
  · rw [h1, h2]
  · rw [h1, h2]
    have hm : e'.hasMove = e.hasMove := (congrArg PEntry.hasMove h3.bare :).symm
    dsimp only
    rw [hm]
    split
    · rename_i hh
      rw [moveTarget_agree h (ht e e' h3 hh)]
    · rfl

theorem range_agree {l l' : List (PEntry K)} (h : List.Forall₂ (PointTwins fl R Q dist len o coords moves) l l')
    (hr : ∀ c ∈ coords, InDouble.axisRange fl (R.x c.x) = axisRange c.x ∧ InDouble.axisRange fl (R.y c.y) = axisRange c.y ∧
      InDouble.axisRange fl (R.z c.z) = axisRange c.z) (n : Nat) :
    l'.foldl (fun r e => InDouble.growRange fl r e.coord) n = l.foldl (fun r e => growRange r e.coord) n := by
  induction h generalizing n with
  | nil => rfl
  | @cons e e' l l' he _ ih =>
    rw [List.foldl_cons, List.foldl_cons, ← ih]
    congr 1
    obtain ⟨h1, h2, h3⟩ := hr _ he.mem
    rw [he.coord]
    unfold InDouble.growRange growRange Coord.conv
    dsimp only
    rw [h1, h2, h3]

theorem affecting_agree {l l' : List (PEntry K)} (h : List.Forall₂ (PointTwins fl R Q dist len o coords moves) l l') :
    (l'.filter isAffecting).map (fun _ => 0) = (l.filter isAffecting).map (fun _ => (0 : Nat)) := by
  induction h with
  | nil => rfl
  | @cons e e' l l' he _ ih =>
    have hu : isAffecting e' = isAffecting e := by
      have : e.updateTypes = e'.updateTypes := (congrArg PEntry.updateTypes he.bare :)
      unfold isAffecting
      rw [this]
    rw [List.filter_cons, List.filter_cons, hu]
    split
    · rw [List.map_cons, List.map_cons, ih]
    · exact ih

theorem forall₂_set {α β : Type} {R : α → β → Prop} {l : List α} {l' : List β} (h : List.Forall₂ R l l') (i : Nat) {a : α} {b : β}
    (hab : R a b) : List.Forall₂ R (l.set i a) (l'.set i b) := by
  induction h generalizing i with
  | nil => exact .nil
  | cons hh hl ih =>
    cases i with
    | zero => exact .cons hab hl
    | succ i => exact .cons hh (ih i)

theorem setMove_both {l l' : List (PEntry K)} (h : List.Forall₂ (PointTwins fl R Q dist len o coords moves) l l') {m : Nat × Coord K}
    (hm : m ∈ moves) : Both (List.Forall₂ (PointTwins fl R Q dist len o coords moves)) (setMove l m) (setMove l' (m.1, Q.conv m.2)) := by
  unfold setMove
  rcases forall₂_get? h m.1 with ⟨h1, h2⟩ | ⟨e, e', h1, h2, h3⟩
  · refine .inl ⟨.outOfBounds, ?_, ?_⟩
    · unfold rd; rw [h1]; rfl
    · unfold rd; rw [h2]; rfl
  · rw [rd_of_getElem? h1, rd_of_getElem? h2, ok_bind, ok_bind]
    have hl := (List.getElem?_eq_some_iff.1 h1).1
    have hl' := (List.getElem?_eq_some_iff.1 h2).1
    refine .inr ⟨_, _, wr_ok.2 ⟨hl, rfl⟩, wr_ok.2 ⟨hl', rfl⟩, ?_⟩
    have hnew : PointTwins fl R Q dist len o coords moves { e with hasMove := true, moveCoord := m.2 }
        { e' with hasMove := true, moveCoord := Q.conv m.2 } :=
      ⟨by have := h3.bare
          simp only [PEntry.bare, PEntry.mk.injEq] at this ⊢
          exact ⟨trivial, this.2⟩,
        h3.mem, h3.coord, h3.dist, h3.len, fun _ => rfl, fun _ => ⟨m, hm, rfl⟩⟩
    exact forall₂_set h m.1 hnew

theorem setMoves_both : ∀ (ms : List (Nat × Coord K)) {l l' : List (PEntry K)}, (∀ m ∈ ms, m ∈ moves) →
    List.Forall₂ (PointTwins fl R Q dist len o coords moves) l l' →
    Both (List.Forall₂ (PointTwins fl R Q dist len o coords moves)) (loopM setMove ms l) (loopM setMove (ms.map fun m => (m.1, Q.conv m.2)) l')
  | [], l, l', _, h => .inr ⟨l, l', rfl, rfl, h⟩
  | m :: ms, l, l', hm, h => by
    rw [List.map_cons, loopM_cons, loopM_cons]
    exact (setMove_both h (hm m (by simp))).bind fun a b hab => setMoves_both ms (fun m h => hm m (List.mem_cons_of_mem _ h)) hab

/-- The same configuration with stored coordinates. -/
def Config.conv (R : Coord (K → K)) (cfg : Config K) : Config K := { cfg with coords := cfg.coords.map (Coord.conv R) }

theorem entryOf_both {first : Config K} {updates : List Bucket} (i : Nat) :
    Both (PointTwins fl R Q dist len o first.coords moves) (entryOf dist first updates o i)
      (InDouble.entryOf fl len (first.conv R) updates (R.conv o) i) := by
  unfold entryOf InDouble.entryOf
  show Both _ _ (rd (first.coords.map (Coord.conv R)) i >>= _)
  rw [rd_map]
  cases hc : rd first.coords i with
  | error e => exact .inl ⟨e, rfl, rfl⟩
  | ok c =>
    show Both _ (rd first.types i >>= _) (rd first.types i >>= _)
    cases ht : rd first.types i with
    | error e => exact .inl ⟨e, rfl, rfl⟩
    | ok t =>
      rw [ok_bind, ok_bind]
      cases hu : rd updates i with
      | error e => exact .inl ⟨e, rfl, rfl⟩
      | ok w =>
        refine .inr ⟨_, _, rfl, rfl, ?_⟩
        exact ⟨rfl, List.mem_of_getElem? (rd_ok.1 hc), rfl, rfl, rfl, (fun h => by simp at h), fun h => by simp at h⟩

/-- Processes that are the same apart from their points, which are close. -/
structure ProcTwins (fl : K → K) (ε : K) (p q : Proc K) : Prop where
  bare : p.bare = q.bare
  points : ∀ (k : Nat) (e e' : PEntry K), p.matchList[k]? = some e → q.matchList[k]? = some e' →
    |e'.distance - e.distance| ≤ ε ∧ e.coord.Close ε e'.coord

/-- The constructor of Process in rounded arithmetic. -/
theorem mkProcess_both (hfl : Within fl u) (hR : Converts (5 * u * B) B R) (hQ : Converts (13 * u * B) B Q) {g : Ingredients K} (h : RobustPoints fl R (40 * u * B) μ B dist g)
    (hlen : LengthClose (40 * u * B) ε (3 * B) dist len) (hε : 40 * u * B ≤ ε) (hμ : 2 * ε + 4 * u * (1 / 100000) ≤ μ) :
    Both (ProcTwins fl ε) (mkProcess dist g.first g.second g.info g.rate g.basisSites g.moves g.number)
      (InDouble.mkProcess fl len (g.first.conv R) g.second g.info g.rate g.basisSites (g.moves.map fun m => (m.1, Q.conv m.2))
        g.number) := by
  unfold mkProcess InDouble.mkProcess
  have hup : updateTypesOf (g.first.conv R) g.second g.info = updateTypesOf g.first g.second g.info := rfl
  rw [hup]
  cases updateTypesOf g.first g.second g.info with
  | error e => exact .inl ⟨e, rfl, rfl⟩
  | ok updates =>
    rw [ok_bind, ok_bind]
    show Both _ _ (rd (g.first.coords.map (Coord.conv R)) 0 >>= _)
    rw [rd_map]
    cases ho : rd g.first.coords 0 with
    | error e => exact .inl ⟨e, rfl, rfl⟩
    | ok o =>
      have hom : o ∈ g.first.coords := List.mem_of_getElem? (rd_ok.1 ho)
      rw [ok_bind]
      show Both _ _ (_ >>= _)
      refine Both.bind (R := List.Forall₂ (PointTwins fl R Q dist len o g.first.coords g.moves)) ?_ fun es es' hes => ?_
      · exact Both.mapMM₂ (List.forall₂_same.2 fun i _ => (rfl : i = i)) fun i j hij => by
          subst hij
          exact entryOf_both i
      · refine Both.bind (setMoves_both g.moves (fun _ h => h) hes) fun ws ws' hws => ?_
        have hs : List.Forall₂ (PointTwins fl R Q dist len o g.first.coords g.moves) (sortP ws) (InDouble.sortP fl ws') := by
          refine forall₂_sort_alike hws ?_
          intro a _ b _ a' b' ha hb
          obtain ⟨a1, a2⟩ := ha.close hfl hR h.size hom hlen hε
          obtain ⟨b1, b2⟩ := hb.close hfl hR h.size hom hlen hε
          obtain ⟨ax, ay, az⟩ := h.apart _ hb.mem _ ha.mem
          have hd := h.distances o _ _ (rd_ok.1 ho) hb.mem ha.mem
          rw [← ha.dist, ← hb.dist] at hd
          have e := ptLt_agree hfl hμ b1 a1 b2 a2 hd ax ay az
            (fun he => ⟨he, by rw [ha.coord, hb.coord]; unfold Coord.conv; dsimp only; rw [he]⟩)
            (fun he => ⟨he, by rw [ha.coord, hb.coord]; unfold Coord.conv; dsimp only; rw [he]⟩)
            (fun he => ⟨he, by rw [ha.coord, hb.coord]; unfold Coord.conv; dsimp only; rw [he]⟩)
          show (PEntry.lt b a = false) ↔ _
          unfold PEntry.lt
          rw [e]
        refine .inr ⟨_, _, rfl, rfl, ?_, ?_⟩
        · have hm : InDouble.idMovesOf fl len (InDouble.sortP fl ws') = idMovesOf dist (sortP ws) := by
            refine idMovesOf_agree hs ?_
            intro e e' he hmv f f' hf
            obtain ⟨m, hm, hme⟩ := he.moves hmv
            rw [hf.coord, he.coord, he.move hmv, ← hme]
            exact target_agree hfl hR hQ (h.size _ he.mem) (h.size _ hf.mem) (h.moveSize _ hm) hlen hμ
              (h.targets m hm _ he.mem _ hf.mem)
          have hml : (sortP ws).map PEntry.bare = (InDouble.sortP fl ws').map PEntry.bare :=
            List.forall₂_eq_eq_eq ▸ (List.forall₂_map_left_iff.2 (List.forall₂_map_right_iff.2 (hs.imp fun _ _ h => h.bare)))
          unfold Proc.bare
          rw [hm, hml, range_agree hes h.ranges, affecting_agree hes]
        · intro k e e' hk hk'
          rcases forall₂_get? hs k with ⟨h1, -⟩ | ⟨a, b, h1, h2, h3⟩
          · have hk1 : (sortP ws)[k]? = some e := hk
            rw [hk1] at h1
            simp at h1
          · have hk1 : (sortP ws)[k]? = some e := hk
            have hk2 : (InDouble.sortP fl ws')[k]? = some e' := hk'
            rw [hk1] at h1
            rw [hk2] at h2
            obtain rfl := Option.some.inj h1
            obtain rfl := Option.some.inj h2
            obtain ⟨c1, c2⟩ := h3.close hfl hR h.size hom hlen hε
            exact ⟨c1, c2.mono hε⟩

end KMC

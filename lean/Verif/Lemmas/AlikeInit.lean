import Verif.Lemmas.AlikeRun
import Verif.Lemmas.Environment

/-!
# Preparations that see the same points
-/

set_option linter.unusedSectionVars false

namespace KMC

open LatticeModel

theorem forall₂_insert_alike {α β : Type} {R : α → β → Prop} {r : α → α → Prop} {r' : β → β → Prop} [DecidableRel r]
    [DecidableRel r'] {a : α} {a' : β} (ha : R a a') : ∀ {l : List α} {l' : List β}, List.Forall₂ R l l' →
    (∀ b ∈ l, ∀ b', R b b' → (r a b ↔ r' a' b')) → List.Forall₂ R (l.orderedInsert r a) (l'.orderedInsert r' a') := by
  intro l l' h
  induction h with
  | nil => intro _; exact .cons ha .nil
  | @cons b b' l l' hb hl ih =>
    intro hr
    rw [List.orderedInsert_cons, List.orderedInsert_cons]
    have e := hr b (by simp) b' hb
    by_cases h : r a b
    · rw [if_pos h, if_pos (e.1 h)]
      exact .cons ha (.cons hb hl)
    · rw [if_neg h, if_neg (fun h' => h (e.2 h'))]
      exact .cons hb (ih fun b hb => hr b (List.mem_cons_of_mem _ hb))

/-- Sorting related lists with comparisons that agree. -/
theorem forall₂_sort_alike {α β : Type} {R : α → β → Prop} {r : α → α → Prop} {r' : β → β → Prop} [DecidableRel r]
    [DecidableRel r'] {l : List α} {l' : List β} (h : List.Forall₂ R l l') :
    (∀ a ∈ l, ∀ b ∈ l, ∀ a' b', R a a' → R b b' → (r a b ↔ r' a' b')) →
      List.Forall₂ R (l.insertionSort r) (l'.insertionSort r') := by
  induction h with
  | nil => intro _; exact .nil
  | @cons a a' l l' ha hl ih =>
    intro hr
    rw [List.insertionSort_cons, List.insertionSort_cons]
    refine forall₂_insert_alike ha (ih fun b hb c hc => hr b (List.mem_cons_of_mem _ hb) c (List.mem_cons_of_mem _ hc)) ?_
    intro b hb b' hbb
    exact hr a (by simp) b (List.mem_cons_of_mem _ ((List.perm_insertionSort r l).mem_iff.1 hb)) a' b' ha hbb

theorem Both.mapMM {α β γ : Type} {R : α → β → γ → Prop} {f : α → M β} {g : α → M γ} : ∀ {xs : List α},
    (∀ x ∈ xs, Both (R x) (f x) (g x)) →
      Both (fun ys zs => ys.length = xs.length ∧ zs.length = xs.length ∧ ∀ (k : Nat) x y z, xs[k]? = some x → ys[k]? = some y → zs[k]? = some z → R x y z)
        (KMC.mapMM f xs) (KMC.mapMM g xs)
  | [], _ => .inr ⟨[], [], rfl, rfl, rfl, rfl, by simp⟩
  | x :: xs, h => by
    rw [mapMM_cons, mapMM_cons]
    refine (h x (by simp)).bind fun y z hyz => ?_
    refine (Both.mapMM fun x hx => h x (List.mem_cons_of_mem _ hx)).bind fun ys zs hh => ?_
    refine .inr ⟨y :: ys, z :: zs, rfl, rfl, ?_, ?_, ?_⟩
    · simp [hh.1]
    · simp [hh.2.1]
    · intro k x' y' z' h1 h2 h3
      cases k with
      | zero => cases h1; cases h2; cases h3; exact hyz
      | succ k => exact hh.2.2 k x' y' z' h1 h2 h3

theorem Both.mapMM₂ {α β γ δ : Type} {R : α → β → Prop} {S : γ → δ → Prop} {f : α → M γ} {g : β → M δ} {xs : List α} {ys : List β}
    (h : List.Forall₂ R xs ys) (hf : ∀ x y, R x y → Both S (f x) (g y)) :
    Both (List.Forall₂ S) (KMC.mapMM f xs) (KMC.mapMM g ys) := by
  induction h with
  | nil => exact .inr ⟨[], [], rfl, rfl, .nil⟩
  | cons hxy _ ih =>
    rw [mapMM_cons, mapMM_cons]
    refine (hf _ _ hxy).bind fun a b hab => ih.bind fun as bs habs => ?_
    exact .inr ⟨a :: as, b :: bs, rfl, rfl, .cons hab habs⟩

theorem both_refl {α : Type} (x : M α) : Both Eq x x := by
  cases x with
  | error e => exact .inl ⟨e, rfl, rfl⟩
  | ok a => exact .inr ⟨a, a, rfl, rfl, rfl⟩

theorem forall₂_get {α β : Type} {R : α → β → Prop} {xs : List α} {ys : List β} (h : List.Forall₂ R xs ys) :
    ∀ (k : Nat) {x : α} {y : β}, xs[k]? = some x → ys[k]? = some y → R x y := by
  induction h with
  | nil => intro k x y h; simp at h
  | cons hab _ ih =>
    intro k x y h1 h2
    cases k with
    | zero => cases h1; cases h2; exact hab
    | succ k => exact ih k h1 h2

theorem forall₂_of_get {α β : Type} {R : α → β → Prop} : ∀ {xs : List α} {ys : List β}, xs.length = ys.length →
    (∀ (k : Nat) x y, xs[k]? = some x → ys[k]? = some y → R x y) → List.Forall₂ R xs ys
  | [], [], _, _ => .nil
  | [], _ :: _, h, _ => by simp at h
  | _ :: _, [], h, _ => by simp at h
  | x :: xs, y :: ys, h, hR => .cons (hR 0 x y rfl rfl) (forall₂_of_get (by simpa using h) fun k => hR (k + 1))

variable {K : Type} [Field K] [LinearOrder K]

/-- Where site `a` is, seen from site `i`. -/
def placeOf (dist : Coord K → K) (L : LatticeMap) (coords : List (Coord K)) (i a : Nat) : K × Coord K :=
  let c := Config.relCoord L (coords.getD a 0) (coords.getD i 0)
  (dist c, c)

/-- Where site `a` is, seen from site `i`, as calculated in rounded arithmetic. -/
def placeOf' (fl : K → K) (len : Coord K → K) (L : LatticeMap) (coords : List (Coord K)) (i a : Nat) : K × Coord K :=
  let c := InDouble.relCoord fl L (coords.getD a 0) (coords.getD i 0)
  (len c, c)

/-- What rounding must not change: the order of the sites around a site, and which of them is at a point of a process. -/
structure SeesAlike (fl : K → K) (L : LatticeMap) (dist len : Coord K → K) (coords coords' : List (Coord K)) (r : Nat)
    (procs procs' : List (Proc K)) : Prop where
  order : ∀ i a b, i < coords.length → a ∈ L.neighbourIndices i r → b ∈ L.neighbourIndices i r →
    ptLt (placeOf dist L coords i a).1 (placeOf dist L coords i a).2 (placeOf dist L coords i b).1 (placeOf dist L coords i b).2 =
    InDouble.ptLt fl (placeOf' fl len L coords' i a).1 (placeOf' fl len L coords' i a).2 (placeOf' fl len L coords' i b).1
      (placeOf' fl len L coords' i b).2
  points : ∀ (j : Nat) p q (k : Nat) e e' i a, procs[j]? = some p → procs'[j]? = some q → p.matchList[k]? = some e →
    q.matchList[k]? = some e' → i < coords.length → a ∈ L.neighbourIndices i r →
    ptSame e.distance e.coord (placeOf dist L coords i a).1 (placeOf dist L coords i a).2 =
    InDouble.ptSame fl e'.distance e'.coord (placeOf' fl len L coords' i a).1 (placeOf' fl len L coords' i a).2

section
variable {fl : K → K} {L : LatticeMap} {dist len : Coord K → K} {cfg cfg' : Config K} {r : Nat} {procs procs' : List (Proc K)}

/-- Entries for the same neighbour of site `i`. -/
structure EntryPair (fl : K → K) (L : LatticeMap) (dist len : Coord K → K) (coords coords' : List (Coord K)) (r i : Nat)
    (c d : CEntry K) : Prop where
  bare : c.bare = d.bare
  near : c.index ∈ L.neighbourIndices i r
  exact : c.spot = placeOf dist L coords i c.index
  rounded : d.spot = placeOf' fl len L coords' i c.index

theorem getD_of {α : Type} {l : List α} {i : Nat} {a d : α} (h : l[i]? = some a) : l.getD i d = a := by
  rw [List.getD_eq_getElem?_getD, h]
  rfl

theorem configMatchList_both (h : SeesAlike fl L dist len cfg.coords cfg'.coords r procs procs') (hb : cfg.bare = cfg'.bare) (i : Nat) :
    Both (List.Forall₂ (EntryPair fl L dist len cfg.coords cfg'.coords r i))
      (cfg.configMatchList dist L i (L.neighbourIndices i r)) (InDouble.configMatchList fl len L cfg' i (L.neighbourIndices i r)) := by
  unfold Config.configMatchList InDouble.configMatchList
  have hc : cfg.coords.map (fun _ => (0 : Coord K)) = cfg'.coords.map (fun _ => 0) := (congrArg Config.coords hb :)
  have ht : cfg.types = cfg'.types := (congrArg Config.types hb :)
  refine Both.bind (R := fun x y => cfg.coords[i]? = some x ∧ cfg'.coords[i]? = some y)
    (both_of_agree (rd_agree hc i) fun a b ha hb _ => ⟨rd_ok.1 ha, rd_ok.1 hb⟩) fun x y hxy => ?_
  have hi : i < cfg.coords.length := (List.getElem?_eq_some_iff.1 hxy.1).1
  refine Both.bind (R := List.Forall₂ (EntryPair fl L dist len cfg.coords cfg'.coords r i)) ?_ fun l l' hl => ?_
  · refine (Both.mapMM (R := fun a c d => EntryPair fl L dist len cfg.coords cfg'.coords r i c d) fun a ha => ?_).mono
      fun ys zs hh => forall₂_of_get (by rw [hh.1, hh.2.1]) fun k y z hy hz => ?_
    · unfold Config.cEntry InDouble.cEntry
      refine Both.bind (R := fun x y => cfg.coords[a]? = some x ∧ cfg'.coords[a]? = some y)
        (both_of_agree (rd_agree hc a) fun a b ha hb _ => ⟨rd_ok.1 ha, rd_ok.1 hb⟩) fun u v huv => ?_
      rw [ht]
      refine Both.bind (both_refl _) fun t t' htt => ?_
      subst htt
      refine .inr ⟨_, _, rfl, rfl, ⟨rfl, ha, ?_, ?_⟩⟩
      · unfold placeOf
        dsimp only
        rw [getD_of hxy.1, getD_of huv.1]
      · unfold placeOf'
        dsimp only
        rw [getD_of hxy.2, getD_of huv.2]
    · have hk : k < (L.neighbourIndices i r).length := by rw [← hh.1]; exact (List.getElem?_eq_some_iff.1 hy).1
      exact hh.2.2 k _ y z (List.getElem?_eq_getElem hk) hy hz
  · refine .inr ⟨_, _, rfl, rfl, ?_⟩
    refine forall₂_sort_alike hl ?_
    intro a _ b _ a' b' ha hb
    have e := h.order i b.index a.index hi hb.near ha.near
    rw [← hb.exact, ← ha.exact, ← hb.rounded, ← ha.rounded] at e
    show (CEntry.lt b a = false) ↔ _
    unfold CEntry.lt
    dsimp only at e
    rw [e]

/-- The relation of the prepared configurations. -/
structure Prepared2 (fl : K → K) (L : LatticeMap) (dist len : Coord K → K) (coords coords' : List (Coord K)) (r : Nat)
    (c d : Config K) : Prop where
  bare : c.bare = d.bare
  elements : c.elements = d.elements
  lists : ∀ i l l', c.matchLists[i]? = some l → d.matchLists[i]? = some l' →
    i < coords.length ∧ List.Forall₂ (EntryPair fl L dist len coords coords' r i) l l'

theorem pair_bare {coords coords' : List (Coord K)} {i : Nat} {l l' : List (CEntry K)}
    (h : List.Forall₂ (EntryPair fl L dist len coords coords' r i) l l') : l.map CEntry.bare = l'.map CEntry.bare := by
  induction h with
  | nil => rfl
  | cons hab _ ih => rw [List.map_cons, List.map_cons, hab.bare, ih]

theorem resize_map {α β : Type} (f : α → β) (l : List α) (n : Nat) (d : α) :
    (resize l n d).map f = resize (l.map f) n (f d) := by
  unfold resize
  simp

theorem initMatchLists_both (h : SeesAlike fl L dist len cfg.coords cfg'.coords r procs procs') (hb : cfg.bare = cfg'.bare)
    {n : Nat} (h1 : cfg.matchLists.length = n) (h2 : cfg.types.length = n) (h3 : cfg.coords.length = n) :
    Both (Prepared2 fl L dist len cfg.coords cfg'.coords r) (cfg.initMatchLists dist L r)
      (InDouble.initMatchLists fl len L cfg' r) := by
  unfold Config.initMatchLists InDouble.initMatchLists
  have ht : cfg.types = cfg'.types := (congrArg Config.types hb :)
  have hl : cfg'.matchLists.length = n := by
    have := congrArg (fun c => c.matchLists.length) hb
    simpa [Config.bare, h1] using this.symm
  rw [← ht, h2]
  refine Both.bind (Both.mapMM (R := fun i l l' => List.Forall₂ (EntryPair fl L dist len cfg.coords cfg'.coords r i) l l')
    fun i _ => configMatchList_both h hb i) ?_
  rintro ls ls' ⟨k1, k2, k3⟩
  rw [List.length_range] at k1 k2
  have hbare : ls.map (List.map CEntry.bare) = ls'.map (List.map CEntry.bare) := by
    apply List.ext_getElem?
    intro k
    rw [List.getElem?_map, List.getElem?_map]
    by_cases hk : k < n
    · have e1 := List.getElem?_eq_getElem (l := ls) (i := k) (by omega)
      have e2 := List.getElem?_eq_getElem (l := ls') (i := k) (by omega)
      rw [e1, e2]
      exact congrArg some (pair_bare (k3 k k _ _ (by simp [hk]) e1 e2))
    · rw [List.getElem?_eq_none (by omega), List.getElem?_eq_none (by omega)]
  obtain ⟨b, hb1, hb2, hb3⟩ := Config.loopM_wr_zip ls 0 cfg.matchLists (by omega)
  obtain ⟨b', hb1', hb2', hb3'⟩ := Config.loopM_wr_zip ls' 0 cfg'.matchLists (by omega)
  rw [k1, ← List.range_eq_range'] at hb1
  rw [k2, ← List.range_eq_range'] at hb1'
  rw [hb1, hb1']
  have hsz : ls.foldl (fun m l => if l.length > m then l.length else m) 0 =
      ls'.foldl (fun m l => if l.length > m then l.length else m) 0 := by
    have e : ∀ (ls : List (List (CEntry K))) (a : Nat), ls.foldl (fun m l => if l.length > m then l.length else m) a =
        (ls.map (List.map CEntry.bare)).foldl (fun m l => if l.length > m then l.length else m) a := by
      intro ls a
      rw [List.foldl_map]
      simp
    rw [e, hbare, ← e]
  have gb : ∀ i, i < n → b[i]? = ls[i]? ∧ b'[i]? = ls'[i]? := by
    intro i hi
    rw [hb3, hb3', if_pos (by omega), if_pos (by omega)]
    simp
  have hbb : b.map (List.map CEntry.bare) = b'.map (List.map CEntry.bare) := by
    apply List.ext_getElem?
    intro k
    rw [List.getElem?_map, List.getElem?_map]
    by_cases hk : k < n
    · rw [(gb k hk).1, (gb k hk).2, ← List.getElem?_map, ← List.getElem?_map, hbare]
    · rw [List.getElem?_eq_none (by omega), List.getElem?_eq_none (by omega)]
  refine .inr ⟨_, _, rfl, rfl, ?_, (congrArg Config.elements hb :), ?_⟩
  · rw [hsz]
    have q1 : cfg.coords.map (fun _ => (0 : Coord K)) = cfg'.coords.map (fun _ => 0) := (congrArg Config.coords hb :)
    have q2 : cfg.atomIdCoords.map (fun _ => (0 : Coord K)) = cfg'.atomIdCoords.map (fun _ => 0) :=
      (congrArg Config.atomIdCoords hb :)
    have q3 : cfg.moveVectors.map (fun _ => (0 : Coord K)) = cfg'.moveVectors.map (fun _ => 0) :=
      (congrArg Config.moveVectors hb :)
    have r1 := (congrArg Config.elements hb :)
    have r2 := (congrArg Config.typeNames hb :)
    have r3 := (congrArg Config.possibleTypes hb :)
    have r4 := (congrArg Config.atomId hb :)
    have r5 := (congrArg Config.atomIdElements hb :)
    have r6 := (congrArg Config.movedIds hb :)
    have r7 := (congrArg Config.nMoved hb :)
    have r8 := (congrArg Config.latestProcess hb :)
    have r9 := (congrArg Config.latestSite hb :)
    simp only [Config.bare] at r1 r2 r3 r4 r5 r6 r7 r8 r9
    unfold Config.bare
    dsimp only
    rw [resize_map, resize_map, q1, q2, q3, hbb, r1, r2, r3, r4, r5, r6, r7, r8, r9, ht]
  · intro i l l' hi hi'
    dsimp only at hi hi'
    have hlt : i < n := by rw [← h1, ← hb2]; exact (List.getElem?_eq_some_iff.1 hi).1
    rw [(gb i hlt).1] at hi
    rw [(gb i hlt).2] at hi'
    exact ⟨by omega, k3 i i l l' (by simp [hlt]) hi hi'⟩

/-- Entries of a process that see the same points, and entries of which this is only required if they are no wildcards. -/
def PointPair (fl : K → K) (L : LatticeMap) (dist len : Coord K → K) (coords coords' : List (Coord K)) (r : Nat)
    (e e' : PEntry K) : Prop :=
  ∀ i a, i < coords.length → a ∈ L.neighbourIndices i r →
    ptSame e.distance e.coord (placeOf dist L coords i a).1 (placeOf dist L coords i a).2 =
    InDouble.ptSame fl e'.distance e'.coord (placeOf' fl len L coords' i a).1 (placeOf' fl len L coords' i a).2

theorem alignLoop_both {coords coords' : List (Coord K)} {i : Nat} (hi : i < coords.length) : ∀ {cs ds : List (CEntry K)} {ps qs : List (PEntry K)},
    List.Forall₂ (EntryPair fl L dist len coords coords' r i) cs ds →
    List.Forall₂ (fun e e' => e.bare = e'.bare ∧ PointPair fl L dist len coords coords' r e e') ps qs →
    ∀ (old new : Nat) (mapping : List Nat),
    Both (fun a b => List.Forall₂ (fun e e' : PEntry K => e.bare = e'.bare ∧ (e.isWild ∨ PointPair fl L dist len coords coords' r e e')) a.1 b.1 ∧
        a.2 = b.2)
      (Interactions.alignLoop ps cs old new mapping) (InDouble.alignLoop fl qs ds old new mapping) := by
  intro cs ds ps qs hcs
  induction hcs generalizing ps qs with
  | nil =>
    intro hps old new mapping
    cases hps with
    | nil => exact .inr ⟨_, _, rfl, rfl, .nil, rfl⟩
    | cons h1 h2 => exact .inr ⟨_, _, rfl, rfl, .cons ⟨h1.1, .inr h1.2⟩ (h2.imp fun _ _ h => ⟨h.1, .inr h.2⟩), rfl⟩
  | @cons c d cs ds hcd _ ih =>
    intro hps old new mapping
    cases hps with
    | nil => exact .inr ⟨_, _, rfl, rfl, .nil, rfl⟩
    | @cons p q ps qs h1 h2 =>
      unfold Interactions.alignLoop InDouble.alignLoop
      have e : samePoint p c = InDouble.samePoint fl q d := by
        have := h1.2 i c.index hi hcd.near
        rw [← hcd.exact, ← hcd.rounded] at this
        exact this
      rw [e]
      split
      · refine Both.bind (R := fun w w' : PEntry K => w.bare = w'.bare ∧ w.isWild) ?_ fun w w' hw => ?_
        · unfold initWildcard
          have em : c.matchTypes = d.matchTypes := (congrArg CEntry.matchTypes hcd.bare :)
          rw [em]
          refine Both.bind (R := fun m m' : Bucket => m = m' ∧ m[0]? = some 1) ?_ fun m m' hm => ?_
          · cases hx : wr (Bucket.zeros d.matchTypes.length) 0 (1 : Int) with
            | error e => exact .inl ⟨e, rfl, rfl⟩
            | ok m =>
              obtain ⟨hlt, rfl⟩ := wr_ok.1 hx
              exact .inr ⟨_, _, rfl, rfl, rfl, by rw [List.getElem?_set, if_pos rfl, if_pos hlt]⟩
          · obtain ⟨rfl, hm⟩ := hm
            exact .inr ⟨_, _, rfl, rfl, rfl, hm⟩
        · refine (ih (.cons h1 h2) old (new + 1) mapping).bind fun a b hab => ?_
          exact .inr ⟨_, _, rfl, rfl, .cons ⟨hw.1, .inl hw.2⟩ hab.1, hab.2⟩
      · refine Both.bind (both_refl _) fun m m' hm => ?_
        subst hm
        refine (ih h2 (old + 1) (new + 1) m).bind fun a b hab => ?_
        exact .inr ⟨_, _, rfl, rfl, .cons ⟨h1.1, .inr h1.2⟩ hab.1, hab.2⟩

theorem forall₂_bare {R : PEntry K → PEntry K → Prop} {ps qs : List (PEntry K)}
    (h : List.Forall₂ (fun e e' => e.bare = e'.bare ∧ R e e') ps qs) : ps.map PEntry.bare = qs.map PEntry.bare := by
  induction h with
  | nil => rfl
  | cons h1 _ ih => rw [List.map_cons, List.map_cons, h1.1, ih]

theorem Proc.bare_mk {p q : Proc K} (h : p.bare = q.bare) {l l' : List (PEntry K)} (hl : l.map PEntry.bare = l'.map PEntry.bare)
    (mv : List (Nat × Nat)) : ({ p with matchList := l, idMoves := mv } : Proc K).bare = ({ q with matchList := l', idMoves := mv } : Proc K).bare := by
  have := congrArg (fun x : Proc K => { x with matchList := l.map PEntry.bare, idMoves := mv }) h
  show ({ p.bare with matchList := l.map PEntry.bare, idMoves := mv } : Proc K) = { q.bare with matchList := l'.map PEntry.bare, idMoves := mv }
  rw [← hl]
  exact this

/-- Processes before the preparation. -/
def ProcPair (fl : K → K) (L : LatticeMap) (dist len : Coord K → K) (coords coords' : List (Coord K)) (r : Nat)
    (p q : Proc K) : Prop :=
  p.bare = q.bare ∧ List.Forall₂ (PointPair fl L dist len coords coords' r) p.matchList q.matchList

/-- Processes after the preparation. -/
def ProcPair' (fl : K → K) (L : LatticeMap) (dist len : Coord K → K) (coords coords' : List (Coord K)) (r : Nat)
    (p q : Proc K) : Prop :=
  p.bare = q.bare ∧ List.Forall₂ (fun e e' : PEntry K => e.isWild ∨ PointPair fl L dist len coords coords' r e e') p.matchList q.matchList

theorem forall₂_and {α β : Type} {f : α → γ} {f' : β → γ} {R : α → β → Prop} : ∀ {l : List α} {l' : List β},
    l.map f = l'.map f' → List.Forall₂ R l l' → List.Forall₂ (fun a b => f a = f' b ∧ R a b) l l'
  | [], [], _, _ => .nil
  | [], _ :: _, h, _ => by cases h
  | _ :: _, [], h, _ => by cases h
  | a :: l, b :: l', h, .cons h1 h2 => by
    rw [List.map_cons, List.map_cons, List.cons.injEq] at h
    exact .cons ⟨h.1, h1⟩ (forall₂_and h.2 h2)

theorem updateMatchListOf_both {coords coords' : List (Coord K)} {c d : Config K}
    (h : Prepared2 fl L dist len coords coords' r c d) {p q : Proc K} (hpq : ProcPair fl L dist len coords coords' r p q) :
    Both (ProcPair' fl L dist len coords coords' r) (Interactions.updateMatchListOf c L p) (InDouble.updateMatchListOf fl d L q) := by
  unfold Interactions.updateMatchListOf InDouble.updateMatchListOf
  have hb : p.basisSites = q.basisSites := (congrArg Proc.basisSites hpq.1 :)
  have hm : p.idMoves = q.idMoves := (congrArg Proc.idMoves hpq.1 :)
  have hl : p.matchList.map PEntry.bare = q.matchList.map PEntry.bare := (congrArg Proc.matchList hpq.1 :)
  rw [hm]
  split
  next b hpb =>
    split
    case h_2 hne => exact absurd (hb ▸ hpb) (hne b)
    next b' hqb =>
    have hbb : b' = b := by rw [hb, hqb] at hpb; simpa using hpb
    subst hbb
    refine Both.bind (both_refl _) fun i i' hi => ?_
    subst hi
    have hlists : c.matchLists.map (List.map CEntry.bare) = d.matchLists.map (List.map CEntry.bare) :=
      (congrArg Config.matchLists h.bare :)
    refine Both.bind (R := fun l l' => l.length = l'.length ∧ i < coords.length ∧
      List.Forall₂ (EntryPair fl L dist len coords coords' r i) l l')
      (both_of_agree (rd_agree hlists i) fun a b ha hb hab => ⟨by simpa using congrArg List.length hab,
        h.lists i a b (rd_ok.1 ha) (rd_ok.1 hb)⟩) fun l l' hll => ?_
    rw [hll.1]
    refine (alignLoop_both hll.2.1 hll.2.2 (forall₂_and hl hpq.2) 0 0 _).bind fun a b hab => ?_
    dsimp only
    rw [hab.2]
    refine Both.bind (both_refl _) fun mv mv' hmv => ?_
    subst hmv
    exact .inr ⟨_, _, rfl, rfl, Proc.bare_mk hpq.1 (forall₂_bare hab.1) mv, hab.1.imp fun _ _ h => h.2⟩
  next hne =>
    split
    next b' hqb => exact absurd (hb.trans hqb) (hne b')
    exact .inr ⟨_, _, rfl, rfl, hpq.1, hpq.2.imp fun _ _ h => .inr h⟩

theorem updateProcessMatchLists_both {coords coords' : List (Coord K)} {c d : Config K} (w : Bool)
    (h : Prepared2 fl L dist len coords coords' r c d) {ps qs : List (Proc K)}
    (hpq : List.Forall₂ (ProcPair fl L dist len coords coords' r) ps qs) :
    Both (List.Forall₂ (ProcPair' fl L dist len coords coords' r)) (Interactions.updateProcessMatchLists w c L ps)
      (InDouble.updateProcessMatchLists fl w d L qs) := by
  unfold Interactions.updateProcessMatchLists InDouble.updateProcessMatchLists
  split
  · exact .inr ⟨_, _, rfl, rfl, hpq.imp fun _ _ h => ⟨h.1, h.2.imp fun _ _ h => .inr h⟩⟩
  · exact Both.mapMM₂ hpq fun _ _ h' => updateMatchListOf_both h h'

/-- Where rounding changes nothing in what the sites and the processes see, the models start alike. -/
theorem init_both {env env' : Env K} (hc : env.useCustomRates = false) (hc' : env'.useCustomRates = false) (hL : env'.L = env.L)
    (hR : env'.nRanks = env.nRanks) (hw : env'.implicitWildcards = env.implicitWildcards) (hb : cfg.bare = cfg'.bare)
    (hp : procs.map Proc.bare = procs'.map Proc.bare)
    (h : SeesAlike fl env.L env.dist env'.dist cfg.coords cfg'.coords (Interactions.maxRange procs) procs procs')
    {n : Nat} (h1 : cfg.matchLists.length = n) (h2 : cfg.types.length = n) (h3 : cfg.coords.length = n) :
    Both (AlikeSim fl) (Rounded.init fl env cfg procs) (InDouble.init fl env' cfg' procs') := by
  unfold Rounded.init InDouble.init
  have hlen : procs.length = procs'.length := by simpa using congrArg List.length hp
  have hmr : Interactions.maxRange procs' = Interactions.maxRange procs := by rw [← maxRange_bare, ← hp, maxRange_bare]
  have hcl : cfg.coords.length = cfg'.coords.length := by
    have := congrArg (fun c => c.coords.length) hb
    simpa [Config.bare] using this
  refine Both.bind (R := Alike fl) ?_ fun m m' hm => ?_
  · unfold Rounded.initialMatching InDouble.initialMatching
    rw [hL, hmr, hw]
    refine (initMatchLists_both h hb h1 h2 h3).bind fun c d hcd => ?_
    have hpp : List.Forall₂ (ProcPair fl env.L env.dist env'.dist cfg.coords cfg'.coords (Interactions.maxRange procs))
        (Interactions.clearMatching procs) (Interactions.clearMatching procs') := by
      unfold Interactions.clearMatching
      refine forall₂_of_get (by simp [hlen]) fun j p q hj hj' => ?_
      rw [List.getElem?_map, Option.map_eq_some_iff] at hj hj'
      obtain ⟨p0, hp0, rfl⟩ := hj
      obtain ⟨q0, hq0, rfl⟩ := hj'
      have hbb : p0.bare = q0.bare := by
        have := congrArg (fun l => l[j]?) hp
        simp only [List.getElem?_map, hp0, hq0] at this
        exact Option.some.inj this
      refine ⟨congrArg Proc.clearSites hbb, ?_⟩
      have hml : p0.matchList.map PEntry.bare = q0.matchList.map PEntry.bare := (congrArg Proc.matchList hbb :)
      show List.Forall₂ _ p0.matchList q0.matchList
      refine forall₂_of_get (by simpa using congrArg List.length hml) fun k e e' hk hk' => ?_
      intro i a hi ha
      exact h.points j p0 q0 k e e' i a hp0 hq0 hk hk' hi ha
    refine (updateProcessMatchLists_both env.implicitWildcards hcd hpp).bind fun ps qs hpq => ?_
    rw [hcl, hlen, hcd.elements]
    refine matching_both hc hc' hL hR ⟨?_, ?_⟩ _
    · unfold MState.bare
      have e : ps.map Proc.bare = qs.map Proc.bare := by
        clear hpp
        induction hpq with
        | nil => rfl
        | cons h1 _ ih => rw [List.map_cons, List.map_cons, h1.1, ih]
      simp only [e, hcd.bare]
    · intro j i p q cs ds hj hj' hi hi'
      have hpj := (forall₂_get hpq j hj hj').2
      unfold Config.places at hi hi'
      rw [List.getElem?_map, Option.map_eq_some_iff] at hi hi'
      obtain ⟨l, hl, rfl⟩ := hi
      obtain ⟨l', hl', rfl⟩ := hi'
      obtain ⟨hlt, hll⟩ := hcd.lists i l l' hl hl'
      intro k e x e' y he hx he' hy
      rw [List.getElem?_map, Option.map_eq_some_iff] at hx hy
      obtain ⟨u, hu, rfl⟩ := hx
      obtain ⟨v, hv, rfl⟩ := hy
      have huv := forall₂_get hll k hu hv
      rcases forall₂_get hpj k he he' with hwild | hpt
      · exact .inl hwild
      · refine .inr ?_
        have := hpt i u.index hlt huv.near
        rw [← huv.exact, ← huv.rounded] at this
        exact this
  · refine .inr ⟨_, _, rfl, rfl, ⟨hm, ?_, rfl⟩⟩
    dsimp only
    rw [← probabilityTable_bare, hm.procs, probabilityTable_bare]

end
end KMC

import Verif.Lemmas.BucketInput
import Verif.Lemmas.Construct
import Verif.Lemmas.Sites
import Verif.Samples.Basic

/-!
# Properties C36, C37, C40: the type input of the front end
-/

set_option linter.unusedSectionVars false

namespace KMC
open Spec

/-! ## C40 Bucket input normalisation preserves counts -/

/-- What an item of a bucket entry says: a name alone is one particle, a pair gives the number. -/
def Py.particles : Py → Option (Int × String)
  | .str s => some (1, s)
  | .tup [.int n, .str s] => some (n, s)
  | _ => none

theorem BucketInput.normaliseElement_of {t : Py} {p : Int × String} (h : t.particles = some p) :
    BucketInput.normaliseElement t = .ok (BucketInput.enc p) := by
  unfold Py.particles at h
  split at h
  · cases h; rfl
  · cases h; rfl
  · cases h

/-- C40. Normalising a list entry lists each type once, with the total number given for it; no type is
lost or invented. -/
theorem C40_list (l : List Py) (ps : List (Int × String)) (hl : l.map Py.particles = ps.map some) :
    ∃ qs : List (Int × String), BucketInput.normalise (.lst l) = .ok (qs.map (fun q => [.int q.1, .str q.2])) ∧
      (qs.map (·.2)).Nodup ∧ (∀ s, s ∈ qs.map (·.2) ↔ s ∈ ps.map (·.2)) ∧
      ∀ s, ((qs.filter (fun q => decide (q.2 = s))).map (·.1)).sum =
        ((ps.filter (fun q => decide (q.2 = s))).map (·.1)).sum := by
  have h1 : mapMM BucketInput.normaliseElement l = .ok (ps.map BucketInput.enc) := by
    induction l generalizing ps with
    | nil =>
      cases ps with
      | nil => rfl
      | cons p ps => cases hl
    | cons t l ih =>
      cases ps with
      | nil => cases hl
      | cons p ps =>
        rw [List.map_cons, List.map_cons, List.cons.injEq] at hl
        rw [mapMM_cons, BucketInput.normaliseElement_of hl.1, ok_bind, ih ps hl.2, ok_bind, List.map_cons]
  obtain ⟨sk, hsk⟩ := BucketInput.collect_enc ps ps [] [] [] rfl (by simp)
  refine ⟨shortCollect [] ps, ?_, (BucketInput.shortCollect_names ps []).1, ?_, ?_⟩
  · show (mapMM BucketInput.normaliseElement l >>= fun normalised =>
      loopM (BucketInput.collectStep normalised) normalised.zipIdx ([], []) >>= fun r => pure r.1) = _
    rw [h1, ok_bind]
    have : loopM (BucketInput.collectStep (ps.map BucketInput.enc)) (ps.map BucketInput.enc).zipIdx ([], []) =
      .ok ([] ++ (shortCollect [] ps).map BucketInput.enc, sk) := hsk
    rw [this]
    rfl
  · intro s
    rw [(BucketInput.shortCollect_names ps []).2]
    simp
  · intro s
    exact BucketInput.shortCollect_total ps [] s (by simp)

/-- C40. A single name or pair is kept as it is; other values are rejected. -/
theorem C40_single (t : Py) (hl : ∀ l, t ≠ .lst l) :
    BucketInput.normalise t =
      match t.particles with
      | some p => .ok [[.int p.1, .str p.2]]
      | none => .error .exception := by
  cases t with
  | str s => rfl
  | int n => rfl
  | other => rfl
  | lst l => exact absurd rfl (hl l)
  | tup l =>
    match l with
    | [] => rfl
    | [a] => cases a <;> rfl
    | [a, b] => cases a <;> cases b <;> rfl
    | a :: b :: c :: l => cases a <;> cases b <;> rfl

theorem BucketInput.expandPair_enc (q : Int × String) :
    BucketInput.expandPair [.int q.1, .str q.2] = .ok (List.replicate q.1.toNat q.2) := by
  unfold BucketInput.expandPair
  show (if q.1 ≤ 0 then _ else _) = _
  split
  · rename_i h
    rw [Int.toNat_of_nonpos h]
    rfl
  · rfl

/-- C40. What reaches the back end for a list entry: every type occurs as often as the numbers given
for it add up to (not at all when they add up to nothing or less). -/
theorem C40_expanded (l : List Py) (ps : List (Int × String)) (hl : l.map Py.particles = ps.map some) :
    ∃ q els, BucketInput.normalise (.lst l) = .ok q ∧ BucketInput.expand [q] = .ok [els] ∧
      ∀ s : String, els.count s = Int.toNat ((ps.filter (fun q : Int × String => decide (q.2 = s))).map (fun q : Int × String => q.1)).sum := by
  obtain ⟨qs, h1, h2, -, h4⟩ := C40_list l ps hl
  have hx : mapMM BucketInput.expandPair (qs.map (fun q : Int × String => [Py.int q.1, Py.str q.2])) =
      .ok (qs.map (fun q : Int × String => List.replicate q.1.toNat q.2)) := by
    rw [mapMM_map]
    exact mapMM_eq_map (fun q _ => BucketInput.expandPair_enc q)
  refine ⟨_, (qs.map (fun q : Int × String => List.replicate q.1.toNat q.2)).flatten, h1, ?_, ?_⟩
  · unfold BucketInput.expand
    rw [mapMM_cons, hx]
    rfl
  · intro s
    rw [← h4 s]
    clear * - h2
    induction qs with
    | nil => rfl
    | cons q qs ih =>
      rw [List.map_cons, List.nodup_cons] at h2
      rw [List.map_cons, List.flatten_cons, List.count_append, ih h2.2, List.count_replicate]
      by_cases hs : q.2 = s
      · subst hs
        have h0 : qs.filter (fun x => decide (x.2 = q.2)) = [] := by
          rw [List.filter_eq_nil_iff]
          intro x hx hx2
          exact h2.1 (List.mem_map.2 ⟨x, hx, by simpa using hx2⟩)
        rw [List.filter_cons_of_pos (by simp), h0]
        simp
      · rw [List.filter_cons_of_neg (by simpa using hs)]
        simp [hs]

/-- Two A, a B, three more A: five A and one B. -/
example : [Py.tup [.int 2, .str "A"], .str "B", .tup [.int 3, .str "A"]].map Py.particles =
      [(2, "A"), (1, "B"), (3, "A")].map some ∧
    (match BucketInput.normalise (.lst [.tup [.int 2, .str "A"], .str "B", .tup [.int 3, .str "A"]]) with
      | .ok [[.int 5, .str "A"], [.int 1, .str "B"]] => True
      | _ => False) := by
  refine ⟨rfl, ?_⟩
  show True
  trivial

mutual
/-- Values that compare equal are the same value. -/
theorem Py.same_of_eq : ∀ a b : Py, a.eq b = true → a = b
  | .str a, .str b, h => by rw [Py.eq, decide_eq_true_eq] at h; rw [h]
  | .int a, .int b, h => by rw [Py.eq, decide_eq_true_eq] at h; rw [h]
  | .tup a, .tup b, h => by rw [Py.eq] at h; rw [Py.same_of_eqList a b h]
  | .lst a, .lst b, h => by rw [Py.eq] at h; rw [Py.same_of_eqList a b h]
  | .other, b, h => by cases b <;> simp [Py.eq] at h
  | .str _, .int _, h => by simp [Py.eq] at h
  | .str _, .tup _, h => by simp [Py.eq] at h
  | .str _, .lst _, h => by simp [Py.eq] at h
  | .str _, .other, h => by simp [Py.eq] at h
  | .int _, .str _, h => by simp [Py.eq] at h
  | .int _, .tup _, h => by simp [Py.eq] at h
  | .int _, .lst _, h => by simp [Py.eq] at h
  | .int _, .other, h => by simp [Py.eq] at h
  | .tup _, .str _, h => by simp [Py.eq] at h
  | .tup _, .int _, h => by simp [Py.eq] at h
  | .tup _, .lst _, h => by simp [Py.eq] at h
  | .tup _, .other, h => by simp [Py.eq] at h
  | .lst _, .str _, h => by simp [Py.eq] at h
  | .lst _, .int _, h => by simp [Py.eq] at h
  | .lst _, .tup _, h => by simp [Py.eq] at h
  | .lst _, .other, h => by simp [Py.eq] at h

theorem Py.same_of_eqList : ∀ a b : List Py, Py.eqList a b = true → a = b
  | [], [], _ => rfl
  | x :: xs, y :: ys, h => by
    rw [Py.eqList, Bool.and_eq_true] at h
    rw [Py.same_of_eq x y h.1, Py.same_of_eqList xs ys h.2]
  | [], _ :: _, h => by simp [Py.eqList] at h
  | _ :: _, [], h => by simp [Py.eqList] at h
end

/-- **C40** Whatever the entries are, well formed or not: two of them are added up only if their second items are the same
value. -/
theorem C40_added {N : List (List Py)} {i j : Nat} {st st' : List Py × List Nat}
    (h : BucketInput.addSame N i st j = .ok st') :
    st' = st ∨ ∃ (second : List Py) (x y z s : Py), N[i + j + 1]? = some second ∧ st.1[1]? = some s ∧ second[1]? = some s ∧
      st.1[0]? = some x ∧ second[0]? = some y ∧ x.plus y = .ok z ∧ st' = ([z, s], st.2 ++ [i + j + 1]) := by
  have item : ∀ {l : List Py} {k : Nat} {v : Py}, Py.item l k = .ok v → l[k]? = some v := by
    intro l k v hv
    unfold Py.item at hv
    split at hv
    · next w hw => cases hv; exact hw
    · cases hv
  unfold BucketInput.addSame at h
  dsimp only at h
  split at h
  rotate_left
  · cases h
  next second h1 =>
  rw [ok_bind] at h
  obtain ⟨a, h2, h⟩ := bind_ok.1 h
  obtain ⟨b, h3, h⟩ := bind_ok.1 h
  split at h
  · next hab =>
    obtain rfl := Py.same_of_eq a b hab
    obtain ⟨x, h4, h⟩ := bind_ok.1 h
    obtain ⟨y, h5, h⟩ := bind_ok.1 h
    obtain ⟨z, h6, h⟩ := bind_ok.1 h
    cases h
    exact .inr ⟨second, x, y, z, a, h1, item h2, item h3, item h4, item h5, h6, rfl⟩
  · cases h
    exact .inl rfl

/-! Non-vacuity: two entries of one type. -/
example : BucketInput.addSame [[.int 2, .str "A"], [.int 3, .str "A"]] 0 ([.int 2, .str "A"], []) 0 =
    .ok ([.int 5, .str "A"], [1]) := rfl

mutual
/-- A value of strings, integers, tuples and lists only. -/
def Py.Known : Py → Prop
  | .tup l => Py.AllKnown l
  | .lst l => Py.AllKnown l
  | .other => False
  | _ => True

def Py.AllKnown : List Py → Prop
  | [] => True
  | x :: xs => x.Known ∧ Py.AllKnown xs
end

mutual
/-- A value compares equal to itself. -/
theorem Py.eq_self : ∀ a : Py, a.Known → a.eq a = true
  | .str a, _ => by rw [Py.eq]; exact decide_eq_true rfl
  | .int a, _ => by rw [Py.eq]; exact decide_eq_true rfl
  | .tup a, h => by rw [Py.Known] at h; rw [Py.eq]; exact Py.eqList_self a h
  | .lst a, h => by rw [Py.Known] at h; rw [Py.eq]; exact Py.eqList_self a h
  | .other, h => by rw [Py.Known] at h; exact h.elim

theorem Py.eqList_self : ∀ a : List Py, Py.AllKnown a → Py.eqList a a = true
  | [], _ => by rw [Py.eqList]
  | x :: xs, h => by
    rw [Py.AllKnown] at h
    rw [Py.eqList, Py.eq_self x h.1, Py.eqList_self xs h.2]
    rfl
end

/-- **C40** Entries with the same second item are added up, also when this item is a tuple or a list. -/
theorem C40_adds {N : List (List Py)} {i j : Nat} {st : List Py × List Nat} {second : List Py} {x y z s : Py} (hs : s.Known)
    (h1 : N[i + j + 1]? = some second) (h2 : st.1[1]? = some s) (h3 : second[1]? = some s) (h4 : st.1[0]? = some x)
    (h5 : second[0]? = some y) (hz : x.plus y = .ok z) :
    BucketInput.addSame N i st j = .ok ([z, s], st.2 ++ [i + j + 1]) := by
  have item : ∀ {l : List Py} {k : Nat} {v : Py}, l[k]? = some v → Py.item l k = .ok v := by
    intro l k v hv
    unfold Py.item
    rw [hv]
  unfold BucketInput.addSame
  simp only [h1, item h2, item h3, item h4, item h5, ok_bind, Py.eq_self s hs, if_true, hz]
  rfl

/-! Non-vacuity: the second items are tuples of a list and a name. -/
example : (Py.tup [.lst [.int 1], .str "A"]).Known ∧
    BucketInput.addSame [[.int 2, .tup [.lst [.int 1], .str "A"]], [.int 3, .tup [.lst [.int 1], .str "A"]]] 0
      ([.int 2, .tup [.lst [.int 1], .str "A"]], []) 0 = .ok ([.int 5, .tup [.lst [.int 1], .str "A"]], [1]) := by
  refine ⟨?_, C40_adds ?_ rfl rfl rfl rfl rfl rfl⟩ <;> simp [Py.Known, Py.AllKnown]

/-- C40. The check of pairs inside a list does not do its work: a pair with name and number exchanged is
rejected when it stands alone but passes inside a list. It then fails only when the back end is built. -/
theorem C40_malformed_accepted :
    BucketInput.normalise (.tup [.str "A", .int 2]) = .error .exception ∧
    BucketInput.normalise (.lst [.tup [.str "A", .int 2]]) = .ok [[.str "A", .int 2]] ∧
    BucketInput.expand [[[.str "A", .int 2]]] = .error .exception := ⟨rfl, rfl, rfl⟩

/-! ## C37 The type numbering is a bijection -/

theorem PyConfig.dictOf_nodup {names : List String} (h : names.Nodup) : PyConfig.dictOf names = names.zipIdx := by
  unfold PyConfig.dictOf
  suffices hs : ∀ (l : List (String × Nat)) (d : List (String × Nat)), ((d ++ l).map (·.1)).Nodup →
      l.foldl (fun d e => if d.any (fun x => decide (x.1 = e.1)) then d.map (fun x => if x.1 = e.1 then (x.1, e.2) else x)
        else d ++ [e]) d = d ++ l by
    have := hs names.zipIdx [] (by
      rw [List.nil_append]
      have : names.zipIdx.map (·.1) = names := by simp
      rw [this]; exact h)
    simpa using this
  intro l
  induction l with
  | nil => intro d _; simp
  | cons e l ih =>
    intro d hd
    rw [List.foldl_cons]
    have hno : (d.any fun x => decide (x.1 = e.1)) = false := by
      rw [List.any_eq_false]
      intro x hx hxe
      rw [List.map_append, List.map_cons] at hd
      have := List.disjoint_of_nodup_append hd (List.mem_map_of_mem hx)
      simp only [decide_eq_true_eq] at hxe
      exact this (by rw [hxe]; simp)
    rw [if_neg (by rw [hno]; simp)]
    rw [ih (d ++ [e]) (by simpa using hd)]
    simp

theorem numbering_zipIdx {names : List String} (h : names.Nodup) (h0 : names ≠ []) : Numbering names.zipIdx := by
  refine ⟨?_, ?_, ?_⟩
  · intro hn
    have := congrArg List.length hn
    simp at this
    exact h0 this
  · have : names.zipIdx.map Prod.fst = names := by simp
    rw [this]; exact h
  · have : names.zipIdx.map Prod.snd = List.range names.length := by simp [List.range_eq_range']
    rw [this]; simp

theorem PyConfig.possibleTypes_ok {present : List String} {possible : Option (List String)} {pt : List (String × Nat)}
    (h : PyConfig.possibleTypes present possible = .ok pt) :
    ∃ names, "*" ∉ names ∧ (∀ t ∈ present, t ∈ names) ∧ pt = PyConfig.dictOf ("*" :: names) ∧
      (∀ l, possible = some l → names = l) ∧ (possible = none → names.Nodup) := by
  unfold PyConfig.possibleTypes at h
  obtain ⟨names, h1, h2⟩ := bind_ok.1 h
  refine ⟨names, ?_, ?_, ?_, ?_, ?_⟩
  · intro hm; rw [if_pos hm] at h2; cases h2
  · intro t ht
    cases possible with
    | none =>
      unfold PyConfig.possibleNames at h1
      cases h1
      unfold PyConfig.sortedSet
      rw [List.mem_insertionSort, List.mem_dedup]
      exact ht
    | some l =>
      unfold PyConfig.possibleNames at h1
      dsimp only at h1
      split at h1
      · rename_i ha
        cases h1
        rw [List.all_eq_true] at ha
        simpa using ha t ht
      · cases h1
  · split at h2
    · cases h2
    · cases h2; rfl
  · rintro l rfl
    unfold PyConfig.possibleNames at h1
    dsimp only at h1
    split at h1
    · cases h1; rfl
    · cases h1
  · rintro rfl
    unfold PyConfig.possibleNames at h1
    cases h1
    unfold PyConfig.sortedSet
    exact (List.perm_insertionSort _ _).nodup_iff.2 (List.nodup_dedup _)

/-- C37. The numbering of the types is one-to-one: the wildcard is 0, the numbers are 0, 1, ..., n, each
once, every type present has a number, and the back end's list of names gives back the name for its
number. Partial: when a list of possible types is given it must not have repetitions (see
`C37_repeated`). -/
theorem C37_numbering_partial (present : List String) (possible : Option (List String)) (pt : List (String × Nat))
    (hp : ∀ l, possible = some l → l.Nodup)
    (h : PyConfig.possibleTypes present possible = .ok pt) :
    (pt.map (·.1)).Nodup ∧ pt.map (·.2) = List.range pt.length ∧ ("*", 0) ∈ pt ∧
      (∀ t ∈ present, ∃ k, 0 < k ∧ (t, k) ∈ pt) ∧
      (∀ l, possible = some l → pt.map (·.1) = "*" :: l) ∧
      ∃ names, Config.typeNamesOf pt = .ok names ∧
        ∀ k s, names[k]? = some s ↔ (s, k) ∈ pt := by
  obtain ⟨names, h1, h2, rfl, h4, h5⟩ := PyConfig.possibleTypes_ok h
  have hn : names.Nodup := by
    cases possible with
    | none => exact h5 rfl
    | some l => rw [h4 l rfl]; exact hp l rfl
  have hn' : ("*" :: names).Nodup := List.nodup_cons.2 ⟨h1, hn⟩
  rw [PyConfig.dictOf_nodup hn']
  have hnum := numbering_zipIdx hn' (by simp)
  obtain ⟨tn, t1, -, -, t4⟩ := Config.typeNamesOf_ok hnum
  refine ⟨hnum.names, ?_, ?_, ?_, ?_, tn, t1, t4⟩
  · rw [List.zipIdx_map_snd, List.length_zipIdx, List.range_eq_range']
  · rw [List.zipIdx_cons]; simp
  · intro t ht
    obtain ⟨k, hk⟩ := List.mem_iff_getElem?.1 (h2 t ht)
    refine ⟨k + 1, by omega, ?_⟩
    rw [List.mem_zipIdx_iff_getElem?]
    simpa using hk
  · intro l hl
    rw [h4 l hl]
    simp

example : PyConfig.possibleTypes ["B", "A", "B"] none = .ok [("*", 0), ("A", 1), ("B", 2)] ∧
    PyConfig.possibleTypes ["B"] (some ["C", "B"]) = .ok [("*", 0), ("C", 1), ("B", 2)] ∧ ["C", "B"].Nodup :=
  ⟨by decide +kernel, by decide +kernel, by decide⟩

/-- C37. A repeated name in the list of possible types is accepted and leaves a gap in the numbering. The
number of particles is then reported for the wrong number of types: with two A and one B the front end
is told (0, 0, 2), and B, which has number 3, is missing. -/
theorem C37_repeated :
    PyConfig.possibleTypes ["A", "B", "A"] (some ["A", "A", "B"]) = .ok [("*", 0), ("A", 2), ("B", 3)] ∧
    ((Config.mk' (K := ℚ) [⟨0, 0, 0⟩, ⟨1, 0, 0⟩, ⟨2, 0, 0⟩] [["A"], ["B"], ["A"]] [("*", 0), ("A", 2), ("B", 3)])
      >>= Config.particlesPerType) = .ok [0, 0, 2] := ⟨by decide +kernel, by decide +kernel⟩

/-- C37. With a repeated name, the update of a bucket process on the last type is written outside the
update vector. -/
theorem C37_repeated_update :
    updateFromInfo [("*", 0), ("A", 2), ("B", 3)] [("B", 1)] = .error .outOfBounds := by decide +kernel

/-- C37. A default type is needed with the sparse format and rejected with the others. -/
theorem C37_default {K : Type _} [Field K] (P : PyLattice K) (types : List Py) (default : Option Py)
    (possible : Option (List String)) (r : List (List String) × List (String × Nat))
    (h : PyConfig.elements P types default possible = .ok r) :
    (∃ d, default = some (.str d)) ∧ PyConfig.detect types = .ok .long ∨
    default = none ∧ PyConfig.detect types ≠ .ok .long := by
  unfold PyConfig.elements at h
  obtain ⟨f, h1, h2⟩ := bind_ok.1 h
  rw [h1]
  cases f with
  | short =>
    obtain ⟨l, h3, -⟩ := bind_ok.1 h2
    unfold PyConfig.shortTypes at h3
    cases default with
    | none => exact .inr ⟨rfl, by simp⟩
    | some d => cases h3
  | long =>
    obtain ⟨l, h3, -⟩ := bind_ok.1 h2
    unfold PyConfig.longTypes at h3
    split at h3
    · exact .inl ⟨⟨_, rfl⟩, rfl⟩
    · cases h3
  | buckets =>
    obtain ⟨l, h3, -⟩ := bind_ok.1 h2
    unfold PyConfig.bucketTypes at h3
    cases default with
    | none => exact .inr ⟨rfl, by simp⟩
    | some d => cases h3

/-! ## C36 Both type input formats describe the same configuration -/

section
variable {K : Type _} [Field K]

/-- What an item of the sparse input says: a site address and a type. -/
def Py.placed : Py → Option (Address × String)
  | .tup [.int i, .int j, .int k, .int b, .str s] =>
    if 0 ≤ i ∧ 0 ≤ j ∧ 0 ≤ k ∧ 0 ≤ b then some (⟨i.toNat, j.toNat, k.toNat, b.toNat⟩, s) else none
  | _ => none

theorem PyConfig.longTuple_five {a b c d e : Py} :
    PyConfig.longTuple [a, b, c, d, e] = .ok (a.isInt && (b.isInt && (c.isInt && (d.isInt && (e.isStr && true))))) := rfl

theorem PyConfig.longEntry_ok {P : PyLattice K} {cur nxt : List String} {t : Py} :
    PyConfig.longEntry P cur t = .ok nxt ↔ ∃ a s, t.placed = some (a, s) ∧ a.Valid P.map ∧
      P.globalIndex a.a a.b a.c a.l < cur.length ∧ nxt = cur.set (P.globalIndex a.a a.b a.c a.l) s := by
  constructor
  · intro h
    unfold PyConfig.longEntry at h
    split at h
    · rename_i l
      split at h
      · cases h
      · rename_i hlen
        obtain ⟨b, hb, h⟩ := bind_ok.1 h
        split at h
        · cases h
        · split at h
          · rename_i i j k b s _
            split at h
            · cases h
            · split at h
              · cases h
              · split at h
                · cases h
                · split at h
                  · cases h
                  · unfold PyConfig.setItem at h
                    split at h
                    · cases h
                      refine ⟨⟨i.toNat, j.toNat, k.toNat, b.toNat⟩, s, ?_, ?_, by assumption, rfl⟩
                      · exact if_pos (by omega)
                      · unfold Address.Valid PyLattice.map
                        dsimp only
                        omega
                    · cases h
          · cases h
    · cases h
  · rintro ⟨a, s, h1, h2, h3, rfl⟩
    unfold Py.placed at h1
    split at h1
    · rename_i i j k b s'
      split at h1
      · rename_i hpos
        cases h1
        unfold Address.Valid PyLattice.map at h2
        dsimp only at h2 h3
        show (if i < 0 ∨ i ≥ P.repA then .error .exception
          else if j < 0 ∨ j ≥ P.repB then .error .exception
          else if k < 0 ∨ k ≥ P.repC then .error .exception
          else if b < 0 ∨ b ≥ P.basis.length then .error .exception
          else PyConfig.setItem cur (P.globalIndex i.toNat j.toNat k.toNat b.toNat) s : M (List String)) = _
        unfold PyConfig.setItem
        rw [if_neg (by omega), if_neg (by omega), if_neg (by omega), if_neg (by omega), if_pos h3]
      · cases h1
    · cases h1

/-- The types given for one address, in the order given. -/
def givenAt (types : List Py) (a : Address) : List String :=
  types.filterMap fun t => match t.placed with
    | some (b, s) => if b = a then some s else none
    | none => none

theorem PyConfig.longLoop {P : PyLattice K} (types : List Py) : ∀ (cur l : List String),
    cur.length = P.sites.length → loopM (PyConfig.longEntry P) types cur = .ok l →
    l.length = P.sites.length ∧ (∀ t ∈ types, ∃ a s, t.placed = some (a, s) ∧ a.Valid P.map) ∧
      ∀ a : Address, a.Valid P.map → l[P.globalIndex a.a a.b a.c a.l]? =
        (match (givenAt types a).getLast? with | some s => some s | none => cur[P.globalIndex a.a a.b a.c a.l]?) := by
  induction types with
  | nil =>
    intro cur l hc h
    cases h
    exact ⟨hc, by simp, by intro a _; rfl⟩
  | cons t types ih =>
    intro cur l hc h
    rw [loopM_cons] at h
    obtain ⟨nxt, h1, h2⟩ := bind_ok.1 h
    obtain ⟨a, s, p1, p2, p3, rfl⟩ := PyConfig.longEntry_ok.1 h1
    obtain ⟨i1, i2, i3⟩ := ih _ l (by rw [List.length_set]; exact hc) h2
    refine ⟨i1, ?_, ?_⟩
    · intro u hu
      rcases List.mem_cons.1 hu with rfl | hu
      · exact ⟨a, s, p1, p2⟩
      · exact i2 u hu
    · intro b hb
      rw [i3 b hb]
      have hg : givenAt (t :: types) b = (if a = b then [s] else []) ++ givenAt types b := by
        unfold givenAt
        rw [List.filterMap_cons, p1]
        by_cases hab : a = b
        · simp [hab]
        · simp [hab]
      rw [hg]
      by_cases hab : a = b
      · subst hab
        rw [if_pos rfl]
        cases hl : (givenAt types a).getLast? with
        | none =>
          rw [List.getLast?_eq_none_iff] at hl
          rw [hl]
          simp [p3]
        | some x =>
          rw [List.getLast?_append, hl]
          rfl
      · rw [if_neg hab, List.nil_append]
        cases hl : (givenAt types b).getLast? with
        | some x => rfl
        | none =>
          dsimp only
          rw [List.getElem?_set, if_neg]
          intro he
          rw [P.globalIndex_eq_siteNo, P.globalIndex_eq_siteNo] at he
          apply hab
          have e1 := P.map.addr_siteNo a p2
          have e2 := P.map.addr_siteNo b hb
          rw [← e1, ← e2]
          exact congrArg _ he

/-- **C36** Which of the three formats is taken: names only are the short one; tuples only, the first of which begins like
four integers and a name, are the long one; anything with an entry that is neither a name nor a tuple is the format with
several particles on a site. -/
theorem C36_format (types : List Py) :
    (PyConfig.detect types = .ok .short ↔ ∀ t ∈ types, ∃ s, t = .str s) ∧
    (PyConfig.detect types = .ok .long ↔ (∀ t ∈ types, ∃ l, t = .tup l) ∧
      ∃ l rest, types = .tup l :: rest ∧ l.length ≤ 5 ∧ (∀ k < 4, ∀ v, l[k]? = some v → ∃ n, v = .int n) ∧
        ∀ v, l[4]? = some v → ∃ s, v = .str s) ∧
    ((∃ t ∈ types, (∀ s, t ≠ .str s) ∧ ∀ l, t ≠ .tup l) → PyConfig.detect types = .ok .buckets) := by
  have hS : ∀ t : Py, t.isStr = true ↔ ∃ s, t = .str s := by intro t; cases t <;> simp [Py.isStr]
  have hI : ∀ t : Py, t.isInt = true ↔ ∃ s, t = .int s := by intro t; cases t <;> simp [Py.isInt]
  have hT : ∀ t : Py, t.isTup = true ↔ ∃ s, t = .tup s := by intro t; cases t <;> simp [Py.isTup]
  have allS : types.all Py.isStr = true ↔ ∀ t ∈ types, ∃ s, t = .str s := by
    rw [List.all_eq_true]
    exact forall₂_congr fun t _ => hS t
  have allT : types.all Py.isTup = true ↔ ∀ t ∈ types, ∃ s, t = .tup s := by
    rw [List.all_eq_true]
    exact forall₂_congr fun t _ => hT t
  have long : ∀ l : List Py, PyConfig.longTuple l = .ok true ↔ l.length ≤ 5 ∧
      (∀ k < 4, ∀ v, l[k]? = some v → ∃ n, v = .int n) ∧ ∀ v, l[4]? = some v → ∃ s, v = .str s := by
    intro l
    have e0 : PyConfig.longTuple l = .ok true ↔ ∀ k v, l[k]? = some v → PyConfig.longSlot k v = .ok true := by
      unfold PyConfig.longTuple
      rw [bind_ok]
      constructor
      · rintro ⟨r, hr, hall⟩ k v hv
        obtain ⟨y, hy, he⟩ := mapMM_getElem? hr (i := k) (x := (v, k)) (by rw [List.getElem?_zipIdx, hv]; simp)
        rw [pure_ok] at hall
        have := List.all_eq_true.1 (Except.ok.inj hall) y (List.mem_of_getElem? hy)
        rw [he]
        exact congrArg Except.ok this
      · intro h
        refine ⟨l.zipIdx.map fun _ => true, mapMM_eq_map ?_, by rw [pure_ok]; simp⟩
        rintro ⟨v, k⟩ hx
        exact h k v (List.mem_zipIdx_iff_getElem?.1 hx)
    rw [e0]
    unfold PyConfig.longSlot
    constructor
    · intro h
      refine ⟨?_, fun k hk v hv => ?_, fun v hv => ?_⟩
      · by_contra hn
        have := h 5 _ (List.getElem?_eq_getElem (by omega))
        simp at this
      · have := h k v hv
        rw [if_pos hk] at this
        exact (hI v).1 (Except.ok.inj this)
      · have := h 4 v hv
        rw [if_neg (by omega), if_pos rfl] at this
        exact (hS v).1 (Except.ok.inj this)
    · rintro ⟨h1, h2, h3⟩ k v hv
      have hk := (List.getElem?_eq_some_iff.1 hv).1
      by_cases h4 : k < 4
      · rw [if_pos h4, (hI v).2 (h2 k h4 v hv)]
      · obtain rfl : k = 4 := by omega
        rw [if_neg (by omega), if_pos rfl, (hS v).2 (h3 v hv)]
  unfold PyConfig.detect
  by_cases h1 : types.all Py.isStr = true
  · rw [if_pos h1]
    refine ⟨⟨fun _ => allS.1 h1, fun _ => rfl⟩, ⟨fun h => (by cases h), ?_⟩, ?_⟩
    · rintro ⟨-, l, rest, rfl, -⟩
      obtain ⟨s, hs⟩ := allS.1 h1 _ List.mem_cons_self
      cases hs
    · rintro ⟨t, ht, hn, -⟩
      obtain ⟨s, hs⟩ := allS.1 h1 t ht
      exact absurd hs (hn s)
  · rw [if_neg h1]
    have n1 : ¬ ∀ t ∈ types, ∃ s, t = Py.str s := fun h => h1 (allS.2 h)
    by_cases h2 : types.all Py.isTup = true
    · rw [if_pos h2]
      have n2 := allT.1 h2
      cases types with
      | nil => exact absurd (by simp) n1
      | cons t rest =>
        obtain ⟨l, rfl⟩ := n2 t List.mem_cons_self
        dsimp only
        refine ⟨⟨fun h => ?_, fun h => absurd h n1⟩, ⟨fun h => ⟨n2, l, rest, rfl, ?_⟩, ?_⟩, ?_⟩
        · obtain ⟨b, -, hb⟩ := bind_ok.1 h
          cases b <;> cases hb
        · obtain ⟨b, hb, h⟩ := bind_ok.1 h
          cases b with
          | false => cases h
          | true => exact (long l).1 hb
        · rintro ⟨-, l', rest', e, hl⟩
          cases e
          rw [(long l).2 hl]
          rfl
        · rintro ⟨t, ht, -, hn⟩
          obtain ⟨s, hs⟩ := n2 t ht
          exact absurd hs (hn s)
    · rw [if_neg h2]
      refine ⟨⟨fun h => (by cases h), fun h => absurd h n1⟩, ⟨fun h => (by cases h), fun h => absurd (allT.2 h.1) h2⟩, fun _ => rfl⟩

/-! Non-vacuity: the three formats. -/
example : PyConfig.detect [.str "A", .str "B"] = .ok .short ∧
    PyConfig.detect [.tup [.int 0, .int 0, .int 0, .int 0, .str "A"]] = .ok .long ∧
    PyConfig.detect [.lst [.str "A", .str "B"], .str "A"] = .ok .buckets := ⟨rfl, rfl, rfl⟩

/-- C36. Sparse input: when it is accepted there is a default type, every item is a type placed inside the
lattice, and every site has the last type given for it or else the default type; there is one entry per
site. -/
theorem C36_sparse (P : PyLattice K) (types : List Py) (default : Option Py) (l : List String)
    (h : PyConfig.longTypes P types default = .ok l) :
    ∃ d, default = some (.str d) ∧ l.length = P.sites.length ∧
      (∀ t ∈ types, ∃ a s, t.placed = some (a, s) ∧ a.Valid P.map) ∧
      ∀ a : Address, a.Valid P.map →
        l[P.globalIndex a.a a.b a.c a.l]? = some (((givenAt types a).getLast?).getD d) := by
  unfold PyConfig.longTypes at h
  split at h
  · rename_i d
    obtain ⟨h1, h2, h3⟩ := PyConfig.longLoop types _ l (by rw [List.length_replicate]) h
    refine ⟨d, rfl, h1, h2, ?_⟩
    intro a ha
    rw [h3 a ha]
    cases hl : (givenAt types a).getLast? with
    | some x => rfl
    | none =>
      have hlt : P.globalIndex a.a a.b a.c a.l < P.sites.length := by
        rw [P.length_sites, P.globalIndex_eq_siteNo]; exact LatticeMap.siteNo_lt _ _ ha
      dsimp only
      rw [List.getElem?_replicate_of_lt hlt]
      rfl
  · cases h

/-- C36. Sparse input whose items are all placed inside the lattice is accepted. -/
theorem C36_sparse_accepted (P : PyLattice K) (types : List Py) (d : String)
    (h : ∀ t ∈ types, ∃ a s, t.placed = some (a, s) ∧ a.Valid P.map) :
    ∃ l, PyConfig.longTypes P types (some (.str d)) = .ok l := by
  unfold PyConfig.longTypes
  suffices hs : ∀ cur : List String, cur.length = P.sites.length → ∃ l, loopM (PyConfig.longEntry P) types cur = .ok l by
    exact hs _ (by rw [List.length_replicate])
  induction types with
  | nil => intro cur _; exact ⟨cur, rfl⟩
  | cons t types ih =>
    intro cur hc
    obtain ⟨a, s, h1, h2⟩ := h t (by simp)
    have hlt : P.globalIndex a.a a.b a.c a.l < cur.length := by
      rw [hc, P.length_sites, P.globalIndex_eq_siteNo]; exact LatticeMap.siteNo_lt _ _ h2
    rw [loopM_cons, PyConfig.longEntry_ok.2 ⟨a, s, h1, h2, hlt, rfl⟩, ok_bind]
    exact ih (fun u hu => h u (by simp [hu])) _ (by rw [List.length_set]; exact hc)

theorem PyConfig.shortTypes_ok {n : Nat} {types : List Py} {default : Option Py} {l : List String} :
    PyConfig.shortTypes n types default = .ok l ↔ default = none ∧ types = l.map .str ∧ l.length = n := by
  have hstr : ∀ (ts : List Py) (l : List String), mapMM (fun t => match t with
      | .str s => .ok s
      | _ => .error .exception : Py → M String) ts = .ok l ↔ ts = l.map .str := by
    intro ts
    induction ts with
    | nil => intro l; cases l <;> simp
    | cons t ts ih =>
      intro l
      rw [mapMM_cons, bind_ok]
      constructor
      · rintro ⟨s, h1, h2⟩
        obtain ⟨r, h3, h4⟩ := bind_ok.1 h2
        cases h4
        cases t <;> cases h1
        rw [(ih r).1 h3]
        rfl
      · intro h
        cases l with
        | nil => cases h
        | cons s l =>
          rw [List.map_cons, List.cons.injEq] at h
          refine ⟨s, by rw [h.1], ?_⟩
          rw [(ih l).2 h.2]
          rfl
  unfold PyConfig.shortTypes
  cases default with
  | some d => simp
  | none =>
    rw [if_neg (by simp), bind_ok]
    constructor
    · rintro ⟨r, h1, h2⟩
      split at h2
      · cases h2
      · rename_i hn
        cases h2
        exact ⟨rfl, (hstr _ _).1 h1, by simpa using hn⟩
    · rintro ⟨-, h1, h2⟩
      exact ⟨l, (hstr _ _).2 h1, by rw [if_neg (by simpa using h2)]; rfl⟩

/-- C36. The full list format is used as given and must have one entry per site (and no default type). -/
theorem C36_full (n : Nat) (types : List Py) (default : Option Py) (l : List String) :
    PyConfig.shortTypes n types default = .ok l ↔ default = none ∧ types = l.map .str ∧ l.length = n :=
  PyConfig.shortTypes_ok

/-- C36. The two formats agree: writing out the sparse input site by site gives the same types. -/
theorem C36_agree (P : PyLattice K) (types : List Py) (default : Option Py) (l : List String)
    (h : PyConfig.longTypes P types default = .ok l) :
    PyConfig.shortTypes P.sites.length (l.map .str) none = .ok l := by
  obtain ⟨d, -, hl, -⟩ := C36_sparse P types default l h
  exact PyConfig.shortTypes_ok.2 ⟨rfl, rfl, hl⟩

theorem Occupation.of_single {pt : List (String × Nat)} {n : Nat} {l : List String} (hl : l.length = n)
    (hk : ∀ t ∈ l, t ∈ pt.map Prod.fst) : Occupation pt n (l.map (fun s => [s])) := by
  refine ⟨by rw [List.length_map]; exact hl, ?_, ?_⟩
  · intro els h
    obtain ⟨s, -, rfl⟩ := List.mem_map.1 h
    simp
  · intro els h e he
    obtain ⟨s, hs, rfl⟩ := List.mem_map.1 h
    rw [List.mem_singleton] at he
    rw [he]
    exact hk s hs

/-- C36. Full or sparse input that is accepted gives the back end one known element per site and a proper
numbering of the types, so that the constructor of the configuration goes through. Partial: the list of
possible types, if given, must not have repetitions (see `C37_repeated`); for bucket input see
`C36_bucket_length` and `C36_empty_site`. -/
theorem C36_constructed_partial [LinearOrder K] (P : PyLattice K) (types : List Py) (default : Option Py)
    (possible : Option (List String)) (els : List (List String)) (pt : List (String × Nat))
    (hp : ∀ l, possible = some l → l.Nodup)
    (hf : PyConfig.detect types ≠ .ok .buckets)
    (h : PyConfig.elements P types default possible = .ok (els, pt)) :
    els.length = P.sites.length ∧ (∀ e ∈ els, e.length = 1) ∧ Numbering pt ∧ ("*", 0) ∈ pt ∧ Occupation pt P.sites.length els ∧
      ∃ cfg, Config.mk' P.sites els pt = .ok cfg ∧ cfg.elements = els := by
  have fin : ∀ l : List String, l.length = P.sites.length → ∀ pt', PyConfig.possibleTypes l possible = .ok pt' →
      els = l.map (fun s => [s]) → pt = pt' →
      els.length = P.sites.length ∧ (∀ e ∈ els, e.length = 1) ∧ Numbering pt ∧ ("*", 0) ∈ pt ∧ Occupation pt P.sites.length els ∧
      ∃ cfg, Config.mk' P.sites els pt = .ok cfg ∧ cfg.elements = els := by
    rintro l hl pt' hpt rfl rfl
    obtain ⟨c1, c2, c3, c4, -⟩ := C37_numbering_partial l possible pt hp hpt
    have hnum : Numbering pt := ⟨List.ne_nil_of_mem c3, c1, by
      have : pt.map Prod.snd = List.range pt.length := c2
      rw [this]⟩
    have hocc : Occupation pt P.sites.length (l.map (fun s => [s])) := Occupation.of_single hl (by
      intro t ht
      obtain ⟨k, -, hk⟩ := c4 t ht
      exact List.mem_map.2 ⟨_, hk, rfl⟩)
    obtain ⟨cfg, m1, -, -, m4, -⟩ := Config.mk'_ok hnum (coords := P.sites) rfl hocc
    refine ⟨by rw [List.length_map]; exact hl, ?_, hnum, c3, hocc, cfg, m1, m4⟩
    intro e he
    obtain ⟨s, -, rfl⟩ := List.mem_map.1 he
    rfl
  unfold PyConfig.elements at h
  obtain ⟨f, h1, h2⟩ := bind_ok.1 h
  cases f with
  | short =>
    obtain ⟨l, a1, a2⟩ := bind_ok.1 h2
    obtain ⟨pt', b1, b2⟩ := bind_ok.1 a2
    cases b2
    exact fin l (PyConfig.shortTypes_ok.1 a1).2.2 _ b1 rfl rfl
  | long =>
    obtain ⟨l, a1, a2⟩ := bind_ok.1 h2
    obtain ⟨pt', b1, b2⟩ := bind_ok.1 a2
    cases b2
    obtain ⟨d, -, c, -⟩ := C36_sparse P types default l a1
    exact fin l c _ b1 rfl rfl
  | buckets => exact absurd h1 hf

end

/-- Sparse input for four sites: site 2 is given twice, the last one counts. -/
example : PyConfig.elements (Sample.chain 4 true)
      [.tup [.int 2, .int 0, .int 0, .int 0, .str "B"], .tup [.int 0, .int 0, .int 0, .int 0, .str "C"],
       .tup [.int 2, .int 0, .int 0, .int 0, .str "C"]] (some (.str "A")) none =
    .ok ([["C"], ["A"], ["C"], ["A"]], [("*", 0), ("A", 1), ("C", 2)]) := by decide +kernel

/-- The same configuration as a full list. -/
example : PyConfig.elements (Sample.chain 4 true) [.str "C", .str "A", .str "C", .str "A"] none none =
    .ok ([["C"], ["A"], ["C"], ["A"]], [("*", 0), ("A", 1), ("C", 2)]) := by decide +kernel

/-- C36. The length of bucket input is not checked: three entries are accepted for four sites, and the
constructor of the back end configuration then reads outside the list of elements. -/
theorem C36_bucket_length :
    PyConfig.elements (Sample.chain 4 true) [.tup [.int 2, .str "A"], .str "A", .str "A"] none none =
      .ok ([["A", "A"], ["A"], ["A"]], [("*", 0), ("A", 1)]) ∧
    (Sample.chain 4 true).sites.length = 4 ∧
    Config.mk' (Sample.chain 4 true).sites [["A", "A"], ["A"], ["A"]] [("*", 0), ("A", 1)] = .error .outOfBounds :=
  ⟨by decide +kernel, by decide +kernel, by decide +kernel⟩

/-- C36. A site without particles is accepted in bucket input, and the constructor of the back end
configuration then reads the first of its (no) elements. -/
theorem C36_empty_site :
    PyConfig.elements (Sample.chain 4 true) [.lst [], .str "A", .str "A", .str "A"] none none =
      .ok ([[], ["A"], ["A"], ["A"]], [("*", 0), ("A", 1)]) ∧
    Config.mk' (Sample.chain 4 true).sites [[], ["A"], ["A"], ["A"]] [("*", 0), ("A", 1)] = .error .outOfBounds :=
  ⟨by decide +kernel, by decide +kernel⟩

end KMC

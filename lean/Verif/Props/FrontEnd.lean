import Verif.Props.TypeInput
import Verif.Props.ProcessInput
import Verif.Spec.Model

/-!
# Property C51: what the front end accepts is well formed
-/

set_option linter.unusedSectionVars false

namespace KMC
open PyProc

section
variable {K : Type _} [Field K] [LinearOrder K] [FloorRing K]

theorem setMoves_isOk : ∀ (ms : List (Nat × Coord K)) (l : List (PEntry K)), (∀ m ∈ ms, m.1 < l.length) →
    ∃ l', loopM setMove ms l = .ok l' := by
  intro ms
  induction ms with
  | nil => intro l _; exact ⟨l, rfl⟩
  | cons m ms ih =>
    intro l h
    have hm := h m (by simp)
    rw [loopM_cons]
    have : ∃ l1, setMove l m = .ok l1 ∧ l1.length = l.length := by
      unfold setMove
      rw [rd_of_lt hm, ok_bind, wr_of_lt hm]
      exact ⟨_, rfl, by rw [List.length_set]⟩
    obtain ⟨l1, h1, h2⟩ := this
    rw [h1, ok_bind]
    exact ih l1 (fun x hx => by rw [h2]; exact h x (by simp [hx]))

theorem updateTypesOf_isOk {first second : Config K} {n nT : Nat} (h1 : first.Good n nT) (h2 : second.Good n nT) :
    ∃ us, updateTypesOf first second [] = .ok us ∧ us.length = n := by
  have : ∃ us, updateTypesOf first second [] = .ok us := by
    unfold updateTypesOf
    rw [if_neg (by simp)]
    apply mapMM_isOk
    intro i hi
    have hi : i < n := by rw [← h1.shape.elements]; exact List.mem_range.1 hi
    have a1 : i < first.types.length := by rw [h1.shape.types]; exact hi
    have a2 : i < second.types.length := by rw [h2.shape.types]; exact hi
    obtain ⟨d, hd, -⟩ := bucketDiff_ok second.types[i] first.types[i] (by
      rw [h1.bucket _ (List.getElem_mem a1), h2.bucket _ (List.getElem_mem a2)])
    exact ⟨d, by rw [rd_of_lt a1, ok_bind, rd_of_lt a2, ok_bind, hd]⟩
  obtain ⟨us, hus⟩ := this
  refine ⟨us, hus, ?_⟩
  unfold updateTypesOf at hus
  rw [if_neg (by simp)] at hus
  rw [mapMM_length hus, List.length_range, h1.shape.elements]

/-- The constructor of processes goes through for configurations on the same places. -/
theorem mkProcess_isOk {dist : Coord K → K} {first second : Config K} {rate : K} {basis : List Nat}
    {moves : List (Nat × Coord K)} {number n nT : Nat} (h1 : first.Good n nT) (h2 : second.Good n nT) (hn : 0 < n)
    (hm : ∀ m ∈ moves, m.1 < n) :
    ∃ q, mkProcess dist first second [] rate basis moves number = .ok q ∧ q.rate = rate ∧ q.basisSites = basis ∧
      q.number = number ∧ q.custom = false ∧ q.bucketProcess = false := by
  obtain ⟨us, hus, hul⟩ := updateTypesOf_isOk h1 h2
  have hc : 0 < first.coords.length := by rw [h1.shape.coords]; exact hn
  have hent : ∃ es, mapMM (entryOf dist first us first.coords[0]) (List.range first.elements.length) = .ok es := by
    apply mapMM_isOk
    intro i hi
    have hi : i < n := by rw [← h1.shape.elements]; exact List.mem_range.1 hi
    unfold entryOf
    rw [rd_of_lt (by rw [h1.shape.coords]; exact hi), ok_bind, rd_of_lt (by rw [h1.shape.types]; exact hi), ok_bind,
      rd_of_lt (by rw [hul]; exact hi), ok_bind]
    exact ⟨_, rfl⟩
  obtain ⟨es, hes⟩ := hent
  have hel : es.length = n := by rw [mapMM_length hes, List.length_range, h1.shape.elements]
  obtain ⟨wm, hwm⟩ := setMoves_isOk moves es (by rw [hel]; exact hm)
  unfold mkProcess
  rw [hus, ok_bind, rd_of_lt hc, ok_bind, hes, ok_bind]
  dsimp only
  rw [hwm, ok_bind]
  exact ⟨_, rfl, rfl, rfl, rfl, rfl, rfl⟩

variable [IsStrictOrderedRing K]

theorem PyProc.make_moves_lt {coords : List (Coord K)} {before after : List String} {moves : Option (List (Int × Coord K))}
    {basis : List Int} {rate : K} {p : PyProc K} (h : make coords before after moves basis rate = .ok p) :
    ∀ m ∈ p.moves, m.1 < p.coords.length := by
  obtain ⟨cs, ms, ms', h1, hb, ha, hb0, hbn, hr, hw, hne, h2, h3, rfl⟩ := PyProc.make_ok h
  obtain ⟨l, l1, l2⟩ := sortMoves_ok hb ha h3
  intro m hm
  have hm : m ∈ l := l1.mem_iff.2 hm
  obtain ⟨x, -, i, -, hi⟩ := forall₂_left l2.flip m hm
  have := (List.getElem?_eq_some_iff.1 hi).1
  rw [(order_perm hb ha).length_eq, List.length_range] at this
  show m.1 < (List.map _ _).length
  rw [List.length_map, (sortRows_perm _).length_eq, length_rows hb ha]
  exact this

/-- C51. The back end process of an accepted process exists and is well formed: its places are the given
ones, its types are known to the configuration, the places are distinct by more than twice the tolerance
of the matching, and no wildcard is moved. It keeps the rate and the basis sites that the lattice has. -/
theorem C51_process (coords : List (Coord K)) (before after : List String) (moves : Option (List (Int × Coord K)))
    (basis : List Int) (rate : K) (p : PyProc K) (h : PyProc.make coords before after moves basis rate = .ok p)
    (dist : Coord K → K) (pt : List (String × Nat)) (nBasis number : Nat) (hpt : Numbering pt) (h0 : ("*", 0) ∈ pt)
    (hknown : ∀ e ∈ before ++ after, e ∈ pt.map Prod.fst)
    (hapart : coords.Pairwise Apart)
    (hwild : ∀ m ∈ p.moves, p.before[m.1]? ≠ some "*") :
    ∃ q, p.backend dist pt nBasis number = .ok q ∧ q.WellFormed pt.length ∧ q.rate = rate ∧ 0 ≤ q.rate ∧
      q.basisSites = (basis.filter (fun b : Int => decide (b < (nBasis : Int)))).map Int.toNat ∧ q.number = number := by
  obtain ⟨σ, c0, s1, s2, s3, s4, s5, s6, -, -, -, s10, s11, s12⟩ := C39_same_process _ _ _ _ _ _ _ h
  have hml := PyProc.make_moves_lt h
  obtain ⟨w1, -⟩ := C38_wildcards _ _ _ _ _ _ _ h
  have hrate : 0 ≤ rate := by obtain ⟨_, _, _, _, _, _, _, _, hr, _⟩ := PyProc.make_ok h; exact hr
  have hn : 0 < p.coords.length := (List.getElem?_eq_some_iff.1 s10).1
  -- the place of every number
  have hplace : ∀ k, k < p.coords.length → ∃ i, σ[k]? = some i ∧ i < coords.length := by
    intro k hk
    have hk' : k < σ.length := by rw [s2.length_eq, List.length_range, ← s3]; exact hk
    exact ⟨σ[k], List.getElem?_eq_getElem hk', List.mem_range.1 (s2.mem_iff.1 (List.getElem_mem hk'))⟩
  have hb' : ∀ e ∈ p.before, e ∈ before := by
    intro e he
    obtain ⟨k, hk⟩ := List.mem_iff_getElem?.1 he
    obtain ⟨i, hi, -⟩ := hplace k (by rw [s3, ← s4]; exact (List.getElem?_eq_some_iff.1 hk).1)
    rw [(s6 k i hi).2.1] at hk
    exact List.mem_of_getElem? hk
  have ha' : ∀ e ∈ p.after, e ∈ after := by
    intro e he
    obtain ⟨k, hk⟩ := List.mem_iff_getElem?.1 he
    obtain ⟨i, hi, -⟩ := hplace k (by rw [s3, ← s5]; exact (List.getElem?_eq_some_iff.1 hk).1)
    rw [(s6 k i hi).2.2] at hk
    exact List.mem_of_getElem? hk
  have hcen : ∃ d0, centre p.coords = .ok (p.coords.map (fun x => x - d0)) := by
    unfold centre
    cases hp : p.coords with
    | nil => rw [hp] at hn; simp at hn
    | cons d l => exact ⟨d, rfl⟩
  obtain ⟨d0, hcen⟩ := hcen
  have hocc : ∀ l : List String, l.length = p.coords.length → (∀ e ∈ l, e ∈ pt.map Prod.fst) →
      Occupation pt p.coords.length (l.map (fun e => [e])) := fun l hl hk => Occupation.of_single hl hk
  obtain ⟨first, f1, f2, f3, f4, -, -, -, f5, -⟩ := Config.mk'_ok hpt (coords := p.coords.map (fun x => x - d0))
    (n := p.coords.length) (by simp)
    (hocc p.before (by omega) (fun e he => hknown e (List.mem_append_left _ (hb' e he))))
  obtain ⟨second, g1, g2, g3, g4, -, -, -, g5, -⟩ := Config.mk'_ok hpt (coords := p.coords.map (fun x => x - d0))
    (n := p.coords.length) (by simp)
    (hocc p.after (by omega) (fun e he => hknown e (List.mem_append_right _ (ha' e he))))
  obtain ⟨q, q1, q2, q3, q4, -, -⟩ := mkProcess_isOk (dist := dist) (rate := p.rate)
    (basis := p.basisSites.filter (fun b => decide (b < nBasis))) (moves := p.moves) (number := number) f2 g2 hn hml
  -- the count in slot 0 says whether the place is a wildcard
  have hslot : ∀ (cfg : Config K) (l : List String), cfg.Good p.coords.length pt.length →
      cfg.elements = l.map (fun e => [e]) → (∀ (k : Nat) (name : String), cfg.typeNames[k]? = some name ↔ (name, k) ∈ pt) →
      ∀ (i : Nat) (t : Bucket), cfg.types[i]? = some t → ∃ e, l[i]? = some e ∧
        t[0]? = some (if e = "*" then 1 else 0) := by
    intro cfg l hg hel hnames i t ht
    have hil : i < cfg.elements.length := by
      rw [hg.shape.elements, ← hg.shape.types]; exact (List.getElem?_eq_some_iff.1 ht).1
    have hil' : i < l.length := by rw [hel] at hil; simpa using hil
    have he : cfg.elements[i]? = some [l[i]] := by
      rw [hel, List.getElem?_map, List.getElem?_eq_getElem hil']; rfl
    refine ⟨l[i], List.getElem?_eq_getElem hil', ?_⟩
    rw [(hg.tallied i _ t he ht).2 0 "*" ((hnames 0 "*").2 h0), List.count_singleton]
    by_cases h : l[i] = "*" <;> simp [h]
  -- equal types at equal elements
  have hsame : ∀ (i : Nat) (t t' : Bucket), first.types[i]? = some t → second.types[i]? = some t' →
      p.before[i]? = p.after[i]? → t = t' := by
    intro i t t' ht ht' he
    have hil : i < p.before.length := by
      rw [s4, ← s3, ← f2.shape.types]; exact (List.getElem?_eq_some_iff.1 ht).1
    have e1 : first.elements[i]? = some [p.before[i]] := by
      rw [f4, List.getElem?_map, List.getElem?_eq_getElem hil]; rfl
    have e2 : second.elements[i]? = some [p.before[i]] := by
      rw [g4, List.getElem?_map, ← he, List.getElem?_eq_getElem hil]; rfl
    have l1 := f2.bucket t (List.mem_of_getElem? ht)
    have l2 := g2.bucket t' (List.mem_of_getElem? ht')
    apply List.ext_getElem?
    intro k
    by_cases hk : k < pt.length
    · have hk1 : k < first.typeNames.length := by rw [f2.names]; exact hk
      have n1 := List.getElem?_eq_getElem hk1
      have n2 : second.typeNames[k]? = some first.typeNames[k] := (g5 _ _).2 ((f5 _ _).1 n1)
      rw [(f2.tallied i _ t e1 ht).2 k _ n1, (g2.tallied i _ t' e2 ht').2 k _ n2]
    · rw [List.getElem?_eq_none (by omega), List.getElem?_eq_none (by omega)]
  have hhap : ∀ i, i < p.coords.length → Happens first second p.moves i → p.before[i]? ≠ some "*" := by
    intro i hi hh hw
    rcases hh with hh | hh
    · apply hh
      have i1 : i < first.types.length := by rw [f2.shape.types]; exact hi
      have i2 : i < second.types.length := by rw [g2.shape.types]; exact hi
      rw [List.getElem?_eq_getElem i1, List.getElem?_eq_getElem i2]
      congr 1
      refine hsame i _ _ (List.getElem?_eq_getElem i1) (List.getElem?_eq_getElem i2) ?_
      rw [hw, (w1 i).1 hw]
    · obtain ⟨m, hm, rfl⟩ := List.mem_map.1 hh
      exact hwild m hm hw
  have hwf : q.WellFormed pt.length := by
    refine mkProcess_wellFormed q1 f2 g2 (List.length_pos_iff.2 hpt.some) ?_ ?_ ?_
    · intro i t t' ht ht'
      obtain ⟨e, e1, e2⟩ := hslot first p.before f2 f4 f5 i t ht
      obtain ⟨e', e1', e2'⟩ := hslot second p.after g2 g4 g5 i t' ht'
      rw [e2, e2']
      have := w1 i
      rw [e1, e1'] at this
      simp only [Option.some.injEq] at this
      by_cases hs : e = "*"
      · rw [if_pos hs, if_pos (this.1 hs)]
      · rw [if_neg hs, if_neg (fun hh => hs (this.2 hh))]
    · intro i t hh ht hc
      obtain ⟨e, e1, e2⟩ := hslot first p.before f2 f4 f5 i t ht
      have hi : i < p.coords.length := by rw [← f2.shape.types]; exact (List.getElem?_eq_some_iff.1 ht).1
      have hne := hhap i hi hh
      rw [e1] at hne
      rw [e2, if_neg (by simpa using hne)] at hc
      simp at hc
    · intro i j c d hij hc hd _ _
      rw [f3, List.getElem?_map, Option.map_eq_some_iff] at hc hd
      obtain ⟨c', hc, rfl⟩ := hc
      obtain ⟨d', hd, rfl⟩ := hd
      obtain ⟨a, ha, hal⟩ := hplace i (List.getElem?_eq_some_iff.1 hc).1
      obtain ⟨b, hb, hbl⟩ := hplace j (List.getElem?_eq_some_iff.1 hd).1
      have hab : a ≠ b := by
        rintro rfl
        have hnd : σ.Nodup := s2.nodup_iff.2 List.nodup_range
        have e1 := List.getElem?_eq_some_iff.1 ha
        have e2 := List.getElem?_eq_some_iff.1 hb
        have := hnd.getElem_inj_iff.1 (e1.2.trans e2.2.symm)
        omega
      rw [(s6 i a ha).1, List.getElem?_eq_getElem hal, Option.map_some, Option.some.injEq] at hc
      rw [(s6 j b hb).1, List.getElem?_eq_getElem hbl, Option.map_some, Option.some.injEq] at hd
      have hap : Apart coords[a] coords[b] := by
        rcases Nat.lt_or_gt_of_ne hab with hlt | hgt
        · exact List.pairwise_iff_getElem.1 hapart a b hal hbl hlt
        · have := List.pairwise_iff_getElem.1 hapart b a hbl hal hgt
          unfold Apart at this ⊢
          rw [abs_sub_comm (coords[a].x), abs_sub_comm (coords[a].y), abs_sub_comm (coords[a].z)]
          exact this
      rw [← hc, ← hd]
      unfold Apart at hap ⊢
      show 1 / 50000 < |coords[a].x - c0.x - d0.x - (coords[b].x - c0.x - d0.x)| ∨
        1 / 50000 < |coords[a].y - c0.y - d0.y - (coords[b].y - c0.y - d0.y)| ∨
        1 / 50000 < |coords[a].z - c0.z - d0.z - (coords[b].z - c0.z - d0.z)|
      simp only [sub_sub_sub_cancel_right]
      exact hap
  refine ⟨q, ?_, hwf, ?_, ?_, ?_, q4⟩
  · unfold PyProc.backend
    rw [if_neg, hcen, ok_bind, f1, ok_bind, g1, ok_bind, q1]
    rw [Bool.not_eq_false, List.all_eq_true]
    intro e he
    rw [decide_eq_true_eq]
    rcases List.mem_append.1 he with he | he
    · exact hknown e (List.mem_append_left _ (hb' e he))
    · exact hknown e (List.mem_append_right _ (ha' e he))
  · rw [q2, s12]
  · rw [q2, s12]; exact hrate
  · rw [q3, ← s11, List.filter_map, List.map_map]
    conv_lhs => rw [← List.map_id (p.basisSites.filter _)]
    congr 1
    congr 1
    funext b
    simp

/-- A process accepted by the front end whose back end process is well formed by `C51_process`. -/
def FrontProcess (pt : List (String × Nat)) (p : PyProc K) : Prop :=
  ∃ coords before after moves basis rate, PyProc.make coords before after moves basis rate = .ok p ∧
    (∀ e ∈ before ++ after, e ∈ pt.map Prod.fst) ∧ coords.Pairwise Apart ∧
    ∀ m ∈ p.moves, p.before[m.1]? ≠ some "*"

/-- C51. A lattice, types and processes accepted by the front end give a well formed model, for which the
theorems on runs hold. The processes are numbered in order and keep their rates. Partial: the types are
given in full or sparse format and the list of possible types does not repeat a name (see `C37_repeated`). -/
theorem C51_model_partial (P : PyLattice K) (types : List Py) (default : Option Py) (possible : Option (List String))
    (els : List (List String)) (pt : List (String × Nat)) (hP : P.map.WF)
    (hp : ∀ l, possible = some l → l.Nodup) (hf : PyConfig.detect types ≠ .ok .buckets)
    (h : PyConfig.elements P types default possible = .ok (els, pt))
    (ps : List (PyProc K)) (hps : ∀ p ∈ ps, FrontProcess pt p)
    (env : Env K) (hr : 0 < env.nRanks) (hL : env.L = P.map) :
    ∃ cfg qs, Config.mk' P.sites els pt = .ok cfg ∧
      mapMM (fun x : PyProc K × Nat => x.1.backend env.dist pt P.basis.length x.2) ps.zipIdx = .ok qs ∧
      WellFormed env P.sites.length pt.length cfg qs ∧ qs.length = ps.length ∧
      ∀ (i : Nat) (p : PyProc K) (q : Proc K), ps[i]? = some p → qs[i]? = some q → q.number = i ∧ q.rate = p.rate := by
  obtain ⟨-, -, hnum, h0, hocc, -⟩ := C36_constructed_partial P types default possible els pt hp hf h
  obtain ⟨cfg, m1, m2, -⟩ := Config.mk'_ok hnum (coords := P.sites) rfl hocc
  have hback : ∀ x ∈ ps.zipIdx, ∃ q, x.1.backend env.dist pt P.basis.length x.2 = .ok q ∧ q.WellFormed pt.length ∧
      q.number = x.2 ∧ q.rate = x.1.rate := by
    intro x hx
    have hx' : x.1 ∈ ps := by
      obtain ⟨k, hk⟩ := List.mem_iff_getElem?.1 hx
      rw [List.getElem?_zipIdx, Option.map_eq_some_iff] at hk
      obtain ⟨a, ha, rfl⟩ := hk
      exact List.mem_of_getElem? ha
    obtain ⟨coords, before, after, moves, basis, rate, a1, a2, a3, a4⟩ := hps x.1 hx'
    obtain ⟨q, q1, q2, q3, -, -, q4⟩ := C51_process coords before after moves basis rate x.1 a1 env.dist pt
      P.basis.length x.2 hnum h0 a2 a3 a4
    obtain ⟨_, _, _, _, _, _, _, _, _, _, _, _, _, e⟩ := C39_same_process _ _ _ _ _ _ _ a1
    exact ⟨q, q1, q2, q4, q3.trans e.symm⟩
  obtain ⟨qs, hqs⟩ := mapMM_isOk (fun x hx => (hback x hx).imp fun _ hq => hq.1)
  refine ⟨cfg, qs, m1, hqs, ⟨hr, List.length_pos_iff.2 hnum.some, by rw [hL]; exact hP, by rw [hL, ← P.length_sites],
    m2, ?_⟩, by rw [mapMM_length hqs, List.length_zipIdx], ?_⟩
  · intro q hq
    obtain ⟨k, hk⟩ := List.mem_iff_getElem?.1 hq
    obtain ⟨x, hx, hxq⟩ := mapMM_getElem?' hqs hk
    obtain ⟨q', b1, b2, -⟩ := hback x (List.mem_of_getElem? hx)
    have hxq : x.1.backend env.dist pt P.basis.length x.2 = .ok q := hxq
    rw [b1] at hxq
    obtain rfl := Except.ok.inj hxq
    exact b2
  · intro i p q hp hq
    have hz : ps.zipIdx[i]? = some (p, i) := by rw [List.getElem?_zipIdx, hp]; simp
    obtain ⟨q', b1, b2⟩ := mapMM_getElem? hqs hz
    obtain ⟨q'', c1, -, c2, c3⟩ := hback _ (List.mem_of_getElem? hz)
    rw [hq] at b1
    obtain rfl := Option.some.inj b1
    have c1 : p.backend env.dist pt P.basis.length i = .ok q'' := c1
    have b2 : p.backend env.dist pt P.basis.length i = .ok q := b2
    rw [c1] at b2
    obtain rfl := Except.ok.inj b2
    exact ⟨c2, c3⟩

end

/-- The exchange of A and C on a ring of four sites is such a process, and the model is constructed. -/
example : ∃ p : PyProc ℚ, FrontProcess [("*", 0), ("A", 1), ("C", 2)] p ∧
    ∃ cfg qs, Config.mk' (Sample.chain 4 true).sites [["C"], ["A"], ["C"], ["A"]] [("*", 0), ("A", 1), ("C", 2)] = .ok cfg ∧
      WellFormed (Sample.env (Sample.chain 4 true)) 4 3 cfg qs ∧ qs.length = 1 := by
  have hm : ∃ p, PyProc.make (K := ℚ) [⟨0, 0, 0⟩, ⟨1, 0, 0⟩] ["A", "C"] ["C", "A"] none [0] 1 = .ok p ∧
      (∀ m ∈ p.moves, p.before[m.1]? ≠ some "*") :=
    ⟨⟨[⟨0, 0, 0⟩, ⟨1, 0, 0⟩], ["A", "C"], ["C", "A"], [(0, ⟨1, 0, 0⟩), (1, ⟨-1, 0, 0⟩)], [0], 1⟩, by decide +kernel,
      by decide +kernel⟩
  obtain ⟨p, hp, hw⟩ := hm
  have hf : FrontProcess [("*", 0), ("A", 1), ("C", 2)] p :=
    ⟨_, _, _, _, _, _, hp, by decide, by unfold Apart; decide +kernel, hw⟩
  refine ⟨p, hf, ?_⟩
  obtain ⟨cfg, qs, h1, -, h3, h4, -⟩ := C51_model_partial (Sample.chain 4 true)
    [.str "C", .str "A", .str "C", .str "A"] none none [["C"], ["A"], ["C"], ["A"]] [("*", 0), ("A", 1), ("C", 2)]
    (by decide +kernel) (by simp) (by decide +kernel) (by decide +kernel) [p] (by simpa using hf)
    (Sample.env (Sample.chain 4 true)) (by decide) rfl
  exact ⟨cfg, qs, h1, h3, h4⟩

/-! ### Where it fails -/

/-- C51. A move vector at a wildcard is accepted by the front end, and the back end process moves atom ids
at a place where any type may be. -/
theorem C51_wildcard_move :
    ∃ p q, PyProc.make (K := ℚ) [⟨0, 0, 0⟩, ⟨1, 0, 0⟩, ⟨2, 0, 0⟩] ["A", "B", "*"] ["B", "A", "*"]
        (some [(0, ⟨1, 0, 0⟩), (1, ⟨-1, 0, 0⟩), (2, ⟨0, 0, 0⟩)]) [0] 1 = .ok p ∧
      p.backend (fun c => c.normSq) [("*", 0), ("A", 1), ("B", 2)] 1 0 = .ok q ∧ ¬ q.WellFormed 3 := by
  have h1 : ((PyProc.make (K := ℚ) [⟨0, 0, 0⟩, ⟨1, 0, 0⟩, ⟨2, 0, 0⟩] ["A", "B", "*"] ["B", "A", "*"]
        (some [(0, ⟨1, 0, 0⟩), (1, ⟨-1, 0, 0⟩), (2, ⟨0, 0, 0⟩)]) [0] 1) >>= fun p =>
      p.backend (fun c => c.normSq) [("*", 0), ("A", 1), ("B", 2)] 1 0 >>= fun q =>
      .ok (q.matchList.any (fun e => e.hasMove && decide (e.matchTypes[0]? = some 1)))) = .ok true := by decide +kernel
  rw [bind_ok] at h1
  obtain ⟨p, hp, h1⟩ := h1
  rw [bind_ok] at h1
  obtain ⟨q, hq, h1⟩ := h1
  refine ⟨p, q, hp, hq, ?_⟩
  intro hwf
  have := Except.ok.inj h1
  rw [List.any_eq_true] at this
  obtain ⟨e, he, h2⟩ := this
  rw [Bool.and_eq_true, decide_eq_true_eq] at h2
  exact hwf.notWild e he (.inr h2.1) h2.2

instance (a b : Coord ℚ) : Decidable (Apart a b) := by unfold Apart; infer_instance

/-- C51. A coordinate given twice is accepted by the front end; both entries of the back end process are then
compared with the same site. -/
theorem C51_repeated_place :
    ∃ p q, PyProc.make (K := ℚ) [⟨0, 0, 0⟩, ⟨1, 0, 0⟩, ⟨1, 0, 0⟩] ["A", "B", "B"] ["B", "A", "A"] none [0] 1 = .ok p ∧
      p.backend (fun c => c.normSq) [("*", 0), ("A", 1), ("B", 2)] 1 0 = .ok q ∧ ¬ q.WellFormed 3 := by
  have h1 : ((PyProc.make (K := ℚ) [⟨0, 0, 0⟩, ⟨1, 0, 0⟩, ⟨1, 0, 0⟩] ["A", "B", "B"] ["B", "A", "A"] none [0] 1) >>= fun p =>
      p.backend (fun c => c.normSq) [("*", 0), ("A", 1), ("B", 2)] 1 0 >>= fun q =>
      .ok (decide (q.matchList.Pairwise (fun e f => (e.Changes ∨ e.hasMove = true) →
        (f.Changes ∨ f.hasMove = true) → Apart e.coord f.coord)))) = .ok false := by
    decide +kernel
  rw [bind_ok] at h1
  obtain ⟨p, hp, h1⟩ := h1
  rw [bind_ok] at h1
  obtain ⟨q, hq, h1⟩ := h1
  refine ⟨p, q, hp, hq, fun hwf => ?_⟩
  have := Except.ok.inj h1
  rw [decide_eq_false_iff_not] at this
  exact this hwf.apart

end KMC

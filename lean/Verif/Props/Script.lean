import Verif.Lemmas.Script
import Verif.Lemmas.Reread
import Verif.Props.TypeInput
import Verif.Samples.Basic

/-!
# Property C56: what is saved as a script is read back

A name is `Clean` if it has no quote, backslash or line break in it, and a number is `Short` if seven digits are enough for
it.
-/

set_option linter.unusedSectionVars false

namespace KMC
open Script

/-! ### The text -/

/-- C56. The text of a list of names is read back as that list, however it is broken into lines. -/
theorem C56_names (indent : Nat) (ts : List String) (h : ts ≠ []) (hc : ∀ t ∈ ts, Clean t) :
    Literal.names (namesText indent ts) = some ts := by
  unfold Literal.names namesText
  rw [steps_namesLoop indent ts h hc .start ['['] [] (by simp [Literal.steps, Literal.step])]
  simp

example : Literal.names (namesText 9 (List.replicate 30 "CO")) = some (List.replicate 30 "CO") ∧
    '\n' ∈ (namesText 9 (List.replicate 30 "CO")).dropLast := by
  refine ⟨C56_names 9 _ (by simp) ?_, by decide +kernel⟩
  intro t ht
  rw [List.eq_of_mem_replicate ht]
  unfold Clean
  decide

/-- C56. A name with quotes can be read back as two names, and a name with one quote not at all. -/
theorem C56_names_quote :
    Literal.names (namesText 9 ["A','B", "C"]) = some ["A", "B", "C"] ∧
    Literal.names (namesText 9 ["A'B", "C"]) = none := by
  constructor <;> decide +kernel

section
variable {K : Type _} [Field K] [LinearOrder K] [IsStrictOrderedRing K] [FloorRing K]

/-- C56. The text of a number is read back as a number that differs from it by at most one part in two million. -/
theorem C56_number (x : K) : ∃ y, Literal.number (numberText x) = some y ∧ |y - x| ≤ |x| / 2000000 :=
  ⟨saved x, number_numberText x, saved_error x⟩

/-- C56. A number of up to seven digits is read back as it was, and so is a number that has been read. -/
theorem C56_number_exact (x : K) :
    ((∃ (n : Nat) (k : Int), n < 10000000 ∧ |x| = (n : K) * 10 ^ k) → Literal.number (numberText x) = some x) ∧
    ∀ y : K, Literal.number (numberText x) = some y → Literal.number (numberText y) = some y := by
  constructor
  · intro h
    rw [number_numberText, saved_exact h]
  · intro y hy
    rw [number_numberText, Option.some.injEq] at hy
    subst hy
    rw [number_numberText, saved_exact (short_saved x)]

end

example : Literal.number (numberText (1 / 3 : ℚ)) = some (3333333 / 10000000 : ℚ) ∧
    numberText (-1 / 3 : ℚ) = "  -3.333333e-01".toList ∧ numberText (99999999 / 10 : ℚ) = "   1.000000e+07".toList := by
  refine ⟨?_, ?_, ?_⟩ <;> decide +kernel

/-! ### Processes -/

section
variable {K : Type} [Field K] [LinearOrder K] [IsStrictOrderedRing K] [FloorRing K]

/-- The process that the script of a process makes. -/
def Script.reread (p : PyProc K) : M (PyProc K) :=
  PyProc.make (p.coords.map savedCoord) p.before p.after
    (if p.moves.isEmpty then none else some (p.moves.map fun m => ((m.1 : Int), savedCoord m.2)))
    (p.basisSites.map fun b : Nat => (b : Int)) (saved p.rate)

/-- All three numbers are short. -/
def Script.ShortCoord (c : Coord K) : Prop := Short c.x ∧ Short c.y ∧ Short c.z

theorem Script.savedCoord_exact {c : Coord K} (h : ShortCoord c) : savedCoord c = c := by
  unfold savedCoord
  rw [saved_exact h.1, saved_exact h.2.1, saved_exact h.2.2]

theorem Script.shortCoord_saved (c : Coord K) : ShortCoord (savedCoord c) :=
  ⟨short_saved _, short_saved _, short_saved _⟩

theorem Script.reread_short {p : PyProc K} (hc : ∀ c ∈ p.coords, ShortCoord c) (hm : ∀ m ∈ p.moves, ShortCoord m.2)
    (hr : Short p.rate) : reread p = PyProc.make p.coords p.before p.after
      (if p.moves.isEmpty then none else some (p.moves.map fun m => ((m.1 : Int), m.2)))
      (p.basisSites.map fun b : Nat => (b : Int)) p.rate := by
  unfold reread
  have h1 : p.coords.map savedCoord = p.coords := by
    conv_rhs => rw [← List.map_id p.coords]
    exact List.map_congr_left fun c h => savedCoord_exact (hc c h)
  have h2 : (p.moves.map fun m => ((m.1 : Int), savedCoord m.2)) = p.moves.map fun m => ((m.1 : Int), m.2) :=
    List.map_congr_left fun m h => by rw [savedCoord_exact (hm m h)]
  rw [h1, h2, saved_exact hr]

/-- C56. A process with short numbers comes back the same. Partial: with moves, the places must not be closer to each
other than twice the distance in the search for the end of a move. -/
theorem C56_process_exact_partial (coords : List (Coord K)) (before after : List String) (moves : Option (List (Int × Coord K)))
    (basis : List Int) (rate : K) (p : PyProc K) (h : PyProc.make coords before after moves basis rate = .ok p)
    (hsep : p.moves ≠ [] → p.coords.Pairwise (fun a b => 2 / 100000000 ≤ |a.x - b.x| + |a.y - b.y| + |a.z - b.z|))
    (hc : ∀ c ∈ p.coords, ShortCoord c) (hm : ∀ m ∈ p.moves, ShortCoord m.2) (hr : Short p.rate) : reread p = .ok p := by
  rw [reread_short hc hm hr]
  exact PyProc.make_fixed h hsep

/-- C56. What comes back is the process with rounded numbers, its places in another order at most: the rate, the basis
sites and at every place the types before and after. -/
theorem C56_process_close (coords : List (Coord K)) (before after : List String) (moves : Option (List (Int × Coord K)))
    (basis : List Int) (rate : K) (p q : PyProc K) (h : PyProc.make coords before after moves basis rate = .ok p)
    (hq : reread p = .ok q) :
    q.basisSites = p.basisSites ∧ |q.rate - p.rate| ≤ |p.rate| / 2000000 ∧
    ∃ σ : List Nat, σ.Perm (List.range p.coords.length) ∧ q.coords.length = p.coords.length ∧
      ∀ k i : Nat, σ[k]? = some i → q.before[k]? = p.before[i]? ∧ q.after[k]? = p.after[i]? ∧
        ∀ c, p.coords[i]? = some c → ∃ d, q.coords[k]? = some d ∧
          |d.x - c.x| ≤ |c.x| / 2000000 ∧ |d.y - c.y| ≤ |c.y| / 2000000 ∧ |d.z - c.z| ≤ |c.z| / 2000000 := by
  obtain ⟨σ, c0, hc0, hσ, hl1, hl2, hl3, hσ', -, -, -, -, hbasis, hrate⟩ := C39_same_process _ _ _ _ _ _ q hq
  obtain ⟨-, -, -, -, -, -, -, -, -, -, -, hz, -, -⟩ := C39_same_process _ _ _ _ _ _ p h
  have hc00 : c0 = 0 := by
    rw [List.getElem?_map, hz, Option.map_some, Option.some.injEq] at hc0
    rw [← hc0]
    show (⟨saved 0, saved 0, saved 0⟩ : Coord K) = 0
    rw [saved_zero]
    rfl
  refine ⟨?_, by rw [hrate]; exact saved_error _, σ, by simpa using hσ, by simpa using hl1, ?_⟩
  · exact List.map_injective_iff.2 (fun a b hab => by simpa using hab) hbasis
  · intro k i hk
    obtain ⟨h1, h2, h3⟩ := hσ' k i hk
    refine ⟨h2, h3, ?_⟩
    intro c hc
    refine ⟨savedCoord c, ?_, saved_error _, saved_error _, saved_error _⟩
    rw [h1, List.getElem?_map, hc, hc00]
    simp only [Option.map_some, Option.some.injEq]
    show (⟨saved c.x - 0, saved c.y - 0, saved c.z - 0⟩ : Coord K) = _
    simp [savedCoord]

theorem Script.saved_nonneg {x : K} (h : 0 ≤ x) : 0 ≤ saved x := by
  have := saved_error x
  rw [abs_of_nonneg h, abs_le] at this
  linarith [this.1]

theorem Script.reread_nomoves {coords : List (Coord K)} {before after : List String} {moves : Option (List (Int × Coord K))}
    {basis : List Int} {rate : K} {p q : PyProc K} (h : PyProc.make coords before after moves basis rate = .ok p)
    (hp : p.moves = []) (hq : reread p = .ok q) : q.moves = [] := by
  obtain ⟨-, -, -, -, hl1, hl2, hl3, -⟩ := C39_same_process _ _ _ _ _ _ p h
  have hrec := PyProc.reconstruct_again h hp
  unfold reread at hq
  rw [hp] at hq
  obtain ⟨cs, ms, ms', h1, hb, ha, hb0, hbn, hr, hw, hne, h2, h3, rfl⟩ := PyProc.make_ok hq
  obtain ⟨c, -, rfl⟩ := PyProc.centre_ok h1
  simp only [List.isEmpty_nil, if_true] at h2
  unfold PyProc.checkMoves at h2
  simp only [PyProc.reconstruct_none hb (by simp) hrec, ok_bind] at h2
  cases h2
  cases h3
  rfl

/-- C56. A process without moves always comes back. -/
theorem C56_process_without_moves (coords : List (Coord K)) (before after : List String)
    (moves : Option (List (Int × Coord K))) (basis : List Int) (rate : K) (p : PyProc K)
    (h : PyProc.make coords before after moves basis rate = .ok p) (hp : p.moves = []) : ∃ q, reread p = .ok q ∧ q.moves = [] := by
  have hwild := C38_wildcards _ _ _ _ _ _ p h
  obtain ⟨σ, c0, -, -, hl1, hl2, hl3, -, -, -, -, hz, hbasis, hrate⟩ := C39_same_process _ _ _ _ _ _ p h
  obtain ⟨cs, ms, ms', -, -, -, hb0, hbn, hr, -⟩ := PyProc.make_ok h
  have hrec := PyProc.reconstruct_again h hp
  have hq : ∃ q, reread p = .ok q := by
    have hw' : p.before.map (fun e => decide (e = "*")) = p.after.map (fun e => decide (e = "*")) := by
      apply List.ext_getElem?
      intro i
      rw [List.getElem?_map, List.getElem?_map]
      have hi := hwild.1 i
      by_cases hil : i < p.before.length
      · have hil' : i < p.after.length := by omega
        rw [List.getElem?_eq_getElem hil, List.getElem?_eq_getElem hil'] at hi ⊢
        simpa using hi
      · rw [List.getElem?_eq_none (by omega), List.getElem?_eq_none (by omega)]
    have hcen : PyProc.centre (p.coords.map savedCoord) = .ok (p.coords.map savedCoord) := by
      apply PyProc.centre_zero
      rw [List.getElem?_map, hz]
      show some (⟨saved 0, saved 0, saved 0⟩ : Coord K) = some 0
      rw [saved_zero]
      rfl
    unfold reread
    rw [hp]
    have hchk : PyProc.checkMoves (p.coords.map savedCoord) p.before p.after none = .ok [] := by
      unfold PyProc.checkMoves
      simp only [PyProc.reconstruct_none (coords' := p.coords.map savedCoord) (by simp; omega) (by simp) hrec, ok_bind]
    exact ⟨_, PyProc.make_of hcen (by simp; omega) (by simp; omega) (by rw [hbasis]; exact hb0) (by rw [hbasis]; exact hbn)
      (by rw [hrate]; exact saved_nonneg hr) hw' hwild.2 hchk rfl⟩
  obtain ⟨q, hq⟩ := hq
  exact ⟨q, hq, reread_nomoves h hp hq⟩

/-- C56. Once read back, a process does not change any more. Partial: as `C56_process_exact_partial`. -/
theorem C56_process_settles_partial (coords : List (Coord K)) (before after : List String)
    (moves : Option (List (Int × Coord K))) (basis : List Int) (rate : K) (p q : PyProc K)
    (h : PyProc.make coords before after moves basis rate = .ok p) (hq : reread p = .ok q)
    (hsep : q.moves ≠ [] → q.coords.Pairwise (fun a b => 2 / 100000000 ≤ |a.x - b.x| + |a.y - b.y| + |a.z - b.z|)) :
    reread q = .ok q := by
  obtain ⟨σ, c0, hc0, hσ, hl1, hl2, hl3, hσ', hm', -, -, -, hbasis, hrate⟩ := C39_same_process _ _ _ _ _ _ q hq
  obtain ⟨-, -, -, -, -, -, -, -, -, -, -, hz, -, -⟩ := C39_same_process _ _ _ _ _ _ p h
  have hc00 : c0 = 0 := by
    rw [List.getElem?_map, hz, Option.map_some, Option.some.injEq] at hc0
    rw [← hc0]
    show (⟨saved 0, saved 0, saved 0⟩ : Coord K) = 0
    rw [saved_zero]
    rfl
  refine C56_process_exact_partial _ _ _ _ _ _ q hq hsep ?_ ?_ (by rw [hrate]; exact short_saved _)
  · intro c hc
    obtain ⟨k, hk⟩ := List.mem_iff_getElem?.1 hc
    have hkl : k < σ.length := by
      rw [hσ.length_eq, List.length_range, ← hl1]
      exact (List.getElem?_eq_some_iff.1 hk).1
    obtain ⟨h1, -, -⟩ := hσ' k σ[k] (List.getElem?_eq_getElem hkl)
    rw [hk, List.getElem?_map, hc00] at h1
    cases hx : p.coords[σ[k]]? with
    | none => rw [hx] at h1; cases h1
    | some x =>
      rw [hx] at h1
      simp only [Option.map_some, Option.some.injEq] at h1
      have : c = savedCoord x := by
        rw [h1]
        show (⟨saved x.x - 0, saved x.y - 0, saved x.z - 0⟩ : Coord K) = _
        simp [savedCoord]
      rw [this]
      exact shortCoord_saved x
  · intro m hm
    by_cases hne : p.moves = []
    · rw [reread_nomoves h hne hq] at hm
      cases hm
    · have he' : p.moves.isEmpty = false := by simpa using hne
      obtain ⟨l, l1, l2⟩ := hm' (p.moves.map fun m => ((m.1 : Int), savedCoord m.2)) (by rw [he']; rfl)
      have hml := l1.mem_iff.2 hm
      have key : ∀ (a : List (Int × Coord K)) (b : List (Nat × Coord K)) (R : Int × Coord K → Nat × Coord K → Prop),
          List.Forall₂ (fun m q => q.2 = m.2 ∧ R m q) a b → (∀ x ∈ a, ShortCoord x.2) → ∀ y ∈ b, ShortCoord y.2 := by
        intro a b R hab
        induction hab with
        | nil => intro _ y hy; cases hy
        | cons hxy _ ih =>
          intro hx y hy
          rcases List.mem_cons.1 hy with rfl | hy
          · rw [hxy.1]; exact hx _ (by simp)
          · exact ih (fun z hz => hx z (by simp [hz])) y hy
      refine key _ _ _ l2 ?_ m hml
      intro x hx
      obtain ⟨z, -, rfl⟩ := List.mem_map.1 hx
      exact shortCoord_saved _

/-- C56. A process with moves comes back if the rounded moves still lead to the rounded places: to the last test of the
constructor the rounding can make a difference, to the others not. Partial: places apart from each other as above. -/
theorem C56_process_accepted_partial (coords : List (Coord K)) (before after : List String)
    (moves : Option (List (Int × Coord K))) (basis : List Int) (rate : K) (p : PyProc K) (tgt : List Nat)
    (h : PyProc.make coords before after moves basis rate = .ok p) (hne : p.moves ≠ [])
    (hsep : (p.coords.map savedCoord).Pairwise
      (fun a b => 2 / 100000000 ≤ |a.x - b.x| + |a.y - b.y| + |a.z - b.z|))
    (hland : List.Forall₂ (fun (m : Nat × Coord K) j => ∃ (c d : Coord K) (e : String), p.coords[m.1]? = some c ∧
        p.coords[j]? = some d ∧ |saved d.x - (saved c.x + saved m.2.x)| + |saved d.y - (saved c.y + saved m.2.y)| +
          |saved d.z - (saved c.z + saved m.2.z)| < 1 / 100000000 ∧
        p.before[m.1]? = some e ∧ p.after[j]? = some e) p.moves tgt)
    (hrest : ∀ j, j ∉ tgt → p.after[j]? = p.before[j]?) : ∃ q, reread p = .ok q := by
  have hwild := C38_wildcards _ _ _ _ _ _ p h
  obtain ⟨σ, c0, -, -, hl1, hl2, hl3, -, -, -, -, hz, hbasis, hrate⟩ := C39_same_process _ _ _ _ _ _ p h
  obtain ⟨cs, ms, ms', -, -, -, hb0, hbn, hr, -⟩ := PyProc.make_ok h
  have hemp : p.moves.isEmpty = false := by simpa using hne
  have hsr : 0 ≤ saved p.rate := by rw [hrate]; exact saved_nonneg hr
  unfold reread
  rw [hemp]
  refine C38_complete _ _ _ _ tgt _ _ ?_ (by simp [hl1, hl2]) (by simp [hl1, hl3]) (by rw [hbasis]; exact hb0)
    (by rw [hbasis]; exact hbn) hsr hwild.1 hwild.2 hsep ?_ hrest
  · intro he
    rw [List.map_eq_nil_iff] at he
    rw [he] at hz
    cases hz
  · rw [List.forall₂_map_left_iff]
    refine hland.imp ?_
    rintro m j ⟨c, d, e, x1, x2, x3, x4, x5⟩
    refine ⟨m.1, by rw [List.length_map]; exact (List.getElem?_eq_some_iff.1 x1).1, .inl rfl, savedCoord c, savedCoord d, e, ?_, ?_, x3,
      x4, x5⟩
    · rw [List.getElem?_map, x1]; rfl
    · rw [List.getElem?_map, x2]; rfl

end

/-- Two places that exchange their types, and a third one. -/
example : ∃ p, PyProc.make (K := ℚ) [⟨1, 0, 0⟩, ⟨3 / 2, 0, 0⟩, ⟨1, -1, 0⟩] ["A", "B", "C"] ["B", "A", "C"] none [0, 1] (5 / 2) = .ok p ∧
    p.moves ≠ [] ∧ p.coords = [⟨0, 0, 0⟩, ⟨1 / 2, 0, 0⟩, ⟨0, -1, 0⟩] ∧ reread p = .ok p := by
  refine ⟨⟨[⟨0, 0, 0⟩, ⟨1 / 2, 0, 0⟩, ⟨0, -1, 0⟩], ["A", "B", "C"], ["B", "A", "C"], [(0, ⟨1 / 2, 0, 0⟩), (1, ⟨-1 / 2, 0, 0⟩)], [0, 1],
    5 / 2⟩, by decide +kernel, by decide, rfl, by decide +kernel⟩

/-- C56. A process that was accepted can be rejected when it is read back: with places at one and two thirds the rounded
move from the one does not end at the other. -/
theorem C56_process_rejected : ∃ p, PyProc.make (K := ℚ) [⟨0, 0, 0⟩, ⟨1 / 3, 0, 0⟩, ⟨2 / 3, 0, 0⟩] ["A", "B", "C"] ["A", "C", "B"]
      none [0] 1 = .ok p ∧ reread p = .error .exception := by
  refine ⟨⟨[⟨0, 0, 0⟩, ⟨1 / 3, 0, 0⟩, ⟨2 / 3, 0, 0⟩], ["A", "B", "C"], ["A", "C", "B"],
    [(1, ⟨1 / 3, 0, 0⟩), (2, ⟨-1 / 3, 0, 0⟩)], [0], 1⟩, by decide +kernel, by decide +kernel⟩

/-! ### Unit cells, lattices and configurations -/

section
variable {K : Type} [Field K] [LinearOrder K] [IsStrictOrderedRing K] [FloorRing K]

/-- The unit cell that the script of a unit cell makes. -/
def Script.rereadCell (u : PyUnitCell K) : M (PyUnitCell K) :=
  PyUnitCell.make [row u.a, row u.b, row u.c] (u.basis.map row)

/-- The names that are written as possible types. -/
def Script.possibleNames (pt : List (String × Nat)) : List String := (pt.map Prod.fst).filter (fun t => decide (t ≠ "*"))

theorem Script.row_exact {c : Coord K} (h : ShortCoord c) : row c = [c.x, c.y, c.z] := by
  unfold row
  rw [saved_exact h.1, saved_exact h.2.1, saved_exact h.2.2]

theorem Script.checkCoordinates_ok {rows : List (List K)} {l : List (Coord K)}
    (h : PyUnitCell.checkCoordinateList rows = .ok l) : l ≠ [] ∧ rows = l.map (fun c => [c.x, c.y, c.z]) := by
  unfold PyUnitCell.checkCoordinateList at h
  split_ifs at h with h0
  · cases h
  replace h : mapMM PyUnitCell.checkCoordinate rows = .ok l := h
  have hl := mapMM_length h
  refine ⟨fun he => h0 (by rw [← hl, he]; simp), ?_⟩
  rw [mapMM_ok_iff] at h
  clear h0 hl
  induction h with
  | nil => rfl
  | cons hx _ ih =>
    rw [List.map_cons, ← ih]
    unfold PyUnitCell.checkCoordinate at hx
    split at hx
    · cases hx; rfl
    · cases hx

theorem Script.checkCoordinates_of {l : List (Coord K)} (h : l ≠ []) :
    PyUnitCell.checkCoordinateList (l.map (fun c => [c.x, c.y, c.z])) = .ok l := by
  unfold PyUnitCell.checkCoordinateList
  have : ¬ (l.map (fun c : Coord K => [c.x, c.y, c.z])).length < 1 := by
    rw [List.length_map]
    have := List.length_pos_iff.2 h
    omega
  rw [if_neg this]
  show mapMM PyUnitCell.checkCoordinate _ = _
  rw [mapMM_ok_iff, List.forall₂_map_left_iff]
  exact List.forall₂_same.2 fun c _ => rfl

/-- C56. A unit cell with short numbers comes back the same. -/
theorem C56_cell_exact (cell basis : List (List K)) (u : PyUnitCell K) (h : PyUnitCell.make cell basis = .ok u)
    (hs : ∀ r ∈ cell ++ basis, ∀ x ∈ r, Short x) : rereadCell u = .ok u := by
  have h' := h
  unfold PyUnitCell.make at h
  obtain ⟨v, h1, h⟩ := bind_ok.1 h
  obtain ⟨b, h2, h⟩ := bind_ok.1 h
  unfold PyUnitCell.checkCellVectors at h1
  obtain ⟨l, h3, h1⟩ := bind_ok.1 h1
  obtain ⟨-, hc⟩ := checkCoordinates_ok h3
  obtain ⟨-, hb⟩ := checkCoordinates_ok h2
  have hu : u = ⟨v.1, v.2.1, v.2.2, b⟩ := by
    split at h
    · cases h
    · cases h; rfl
  split at h1
  · rename_i x y z
    split at h1
    · cases h1
    · cases h1
      have hsc : ∀ c ∈ [x, y, z] ++ b, ShortCoord c := by
        intro c hcm
        have : [c.x, c.y, c.z] ∈ cell ++ basis := by
          rw [hc, hb, ← List.map_append]
          exact List.mem_map.2 ⟨c, hcm, rfl⟩
        exact ⟨hs _ this _ (by simp), hs _ this _ (by simp), hs _ this _ (by simp)⟩
      rw [← h', hu]
      unfold rereadCell
      dsimp only
      rw [row_exact (hsc x (by simp)), row_exact (hsc y (by simp)), row_exact (hsc z (by simp)), hc, hb]
      congr 1
      exact List.map_congr_left fun c hcm => row_exact (hsc c (by simp [hcm]))
  · cases h1

/-- C56. The names written as possible types are those given, in their order, unless one was given twice. -/
theorem C56_possible_partial (present : List String) (possible : Option (List String)) (pt : List (String × Nat))
    (hp : ∀ l, possible = some l → l.Nodup) (h : PyConfig.possibleTypes present possible = .ok pt) :
    PyConfig.possibleTypes present (some (possibleNames pt)) = .ok pt := by
  obtain ⟨names, h1, h2, rfl, h4, h5⟩ := PyConfig.possibleTypes_ok h
  have hn : names.Nodup := by
    cases possible with
    | none => exact h5 rfl
    | some l => rw [h4 l rfl]; exact hp l rfl
  have hn' : ("*" :: names).Nodup := List.nodup_cons.2 ⟨h1, hn⟩
  have hnames : possibleNames (PyConfig.dictOf ("*" :: names)) = names := by
    unfold possibleNames
    rw [PyConfig.dictOf_nodup hn', List.zipIdx_map_fst, List.filter_cons_of_neg (by simp), List.filter_eq_self]
    intro t ht
    rw [decide_eq_true_eq]
    rintro rfl
    exact h1 ht
  rw [hnames]
  unfold PyConfig.possibleTypes PyConfig.possibleNames
  have : present.all (fun t => decide (t ∈ names)) = true := by
    rw [List.all_eq_true]
    intro t ht
    simpa using h2 t ht
  dsimp only
  rw [if_pos this, ok_bind, if_neg h1]
  rfl

/-- C56. The lattice and the types of a configuration come back as they are stored, with the same numbers for the types.
Partial: no type may be given twice as possible, and no buckets. -/
theorem C56_configuration_partial (cell : PyUnitCell K) (reps : Option (List Int)) (per : Option (List Bool)) (P : PyLattice K)
    (types : List Py) (default : Option Py) (possible : Option (List String)) (l : List String) (pt : List (String × Nat))
    (hP : PyLattice.make cell reps per = .ok P) (hp : ∀ l, possible = some l → l.Nodup)
    (hf : PyConfig.detect types ≠ .ok .buckets)
    (h : PyConfig.elements P types default possible = .ok (l.map (fun t => [t]), pt)) :
    PyLattice.make cell (some [(P.repA : Int), (P.repB : Int), (P.repC : Int)]) (some [P.perA, P.perB, P.perC]) = .ok P ∧
    makeConfiguration cell P l (possibleNames pt) =
      .ok ⟨cell, P.repA, P.repB, P.repC, [P.perA, P.perB, P.perC], .names l, pt⟩ := by
  constructor
  · unfold PyLattice.make at hP
    obtain ⟨r, h1, hP⟩ := bind_ok.1 hP
    obtain ⟨p, h2, hP⟩ := bind_ok.1 hP
    cases hP
    have hr : 1 ≤ r.1 ∧ 1 ≤ r.2.1 ∧ 1 ≤ r.2.2 := by
      unfold PyLattice.checkRepetitions at h1
      split at h1
      · cases h1; simp
      · split at h1
        · cases h1
        · rename_i hr
          cases h1
          rw [not_or, not_or] at hr
          dsimp only
          omega
      · cases h1
    unfold PyLattice.make PyLattice.checkRepetitions PyLattice.checkPeriodic
    dsimp only
    rw [if_neg (by omega), ok_bind, ok_bind]
    rfl
  · have hl : l.length = P.sites.length ∧ PyConfig.possibleTypes l possible = .ok pt := by
      unfold PyConfig.elements at h
      obtain ⟨f, h1, h2⟩ := bind_ok.1 h
      have hinj : Function.Injective (fun t : String => [t]) := fun a b hab => by simpa using hab
      cases f with
      | short =>
        obtain ⟨l', a1, a2⟩ := bind_ok.1 h2
        obtain ⟨pt', b1, b2⟩ := bind_ok.1 a2
        simp only [pure, Except.pure, Except.ok.injEq, Prod.mk.injEq] at b2
        obtain ⟨e1, rfl⟩ := b2
        have := List.map_injective_iff.2 hinj e1
        subst this
        exact ⟨(PyConfig.shortTypes_ok.1 a1).2.2, b1⟩
      | long =>
        obtain ⟨l', a1, a2⟩ := bind_ok.1 h2
        obtain ⟨pt', b1, b2⟩ := bind_ok.1 a2
        simp only [pure, Except.pure, Except.ok.injEq, Prod.mk.injEq] at b2
        obtain ⟨e1, rfl⟩ := b2
        have := List.map_injective_iff.2 hinj e1
        subst this
        obtain ⟨d, -, c, -⟩ := C36_sparse P types default _ a1
        exact ⟨c, b1⟩
      | buckets => exact absurd h1 hf
    unfold makeConfiguration PyConfig.elements PyConfig.detect
    rw [if_pos (by simp [Py.isStr]), ok_bind]
    dsimp only
    rw [PyConfig.shortTypes_ok.2 ⟨rfl, rfl, hl.1⟩, ok_bind, C56_possible_partial l possible pt hp hl.2, ok_bind]
    rfl

end

/-- C56. A basis point just below one is written as one, and the cell is rejected when it is read back. -/
theorem C56_basis_rejected : ∃ u, PyUnitCell.make (K := ℚ) [[1, 0, 0], [0, 1, 0], [0, 0, 1]] [[0, 0, 99999999 / 100000000]] = .ok u ∧
    rereadCell u = .error .exception := by
  refine ⟨⟨⟨1, 0, 0⟩, ⟨0, 1, 0⟩, ⟨0, 0, 1⟩, [⟨0, 0, 99999999 / 100000000⟩]⟩, by decide +kernel, by decide +kernel⟩

/-- C56. With a type given twice as possible, the numbers of the types change. -/
theorem C56_possible_repeated : PyConfig.possibleTypes ["A", "B"] (some ["A", "B", "A"]) = .ok [("*", 0), ("A", 3), ("B", 2)] ∧
    PyConfig.possibleTypes ["A", "B"] (some (possibleNames [("*", 0), ("A", 3), ("B", 2)])) =
      .ok [("*", 0), ("A", 1), ("B", 2)] := by
  constructor <;> decide +kernel

/-! ### Running the script -/

section
variable {K : Type} [Field K] [LinearOrder K] [IsStrictOrderedRing K] [FloorRing K]

theorem Script.get_put (d : Dict K) (n m : Name) (v : Val K) : get (put d n v) m = if n = m then .ok v else get d m := by
  unfold put
  split_ifs with h1 h2 h2
  · subst h2
    unfold get
    rw [List.find?_map]
    have : ((fun e : Name × Val K => decide (e.1 = n)) ∘ fun e => if e.1 = n then (e.1, v) else e) =
        fun e => decide (e.1 = n) := by
      funext e
      simp only [Function.comp]
      split_ifs with h <;> simp [h]
    rw [this]
    rw [List.any_eq_true] at h1
    cases hf : d.find? (fun e => decide (e.1 = n)) with
    | none =>
      obtain ⟨e, he, he'⟩ := h1
      exact absurd he' (List.find?_eq_none.1 hf e he)
    | some e =>
      have := List.find?_some hf
      simp only [decide_eq_true_eq] at this
      simp [this]
  · unfold get
    rw [List.find?_map]
    have : ((fun e : Name × Val K => decide (e.1 = m)) ∘ fun e => if e.1 = n then (e.1, v) else e) =
        fun e => decide (e.1 = m) := by
      funext e
      simp only [Function.comp]
      split_ifs with h <;> simp [h]
    rw [this]
    cases hf : d.find? (fun e => decide (e.1 = m)) with
    | none => rfl
    | some e =>
      have hem := List.find?_some hf
      simp only [decide_eq_true_eq] at hem
      have : e.1 ≠ n := by rw [hem]; exact Ne.symm h2
      simp [this]
  · subst h2
    unfold get
    rw [List.find?_append]
    have : d.find? (fun e => decide (e.1 = n)) = none := by
      rw [List.find?_eq_none]
      intro e he
      rw [List.any_eq_true] at h1
      exact fun hc => h1 ⟨e, he, hc⟩
    rw [this]
    simp
  · unfold get
    rw [List.find?_append]
    cases hf : d.find? (fun e => decide (e.1 = m)) with
    | none => simp [h2]
    | some e => rfl

/-- No value is a model. -/
def Script.NoModel (d : Dict K) : Prop := ∀ e ∈ d, isModel e.2 = false

theorem Script.noModel_put {d : Dict K} (h : NoModel d) (n : Name) {v : Val K} (hv : isModel v = false) : NoModel (put d n v) := by
  unfold put
  split_ifs
  · intro e he
    obtain ⟨x, hx, rfl⟩ := List.mem_map.1 he
    split_ifs
    · exact hv
    · exact h x hx
  · intro e he
    rcases List.mem_append.1 he with he | he
    · exact h e he
    · rw [List.mem_singleton] at he
      rw [he]; exact hv

theorem Script.find_model {d : Dict K} (h : NoModel d) (n : Name) {v : Val K} (hv : isModel v = true) :
    ((put d n v).map Prod.snd).find? isModel = some v := by
  have hmem : v ∈ (put d n v).map Prod.snd := by
    unfold put
    split_ifs with h1
    · rw [List.any_eq_true] at h1
      obtain ⟨e, he, he'⟩ := h1
      rw [decide_eq_true_eq] at he'
      rw [List.map_map]
      exact List.mem_map.2 ⟨e, he, by simp [he']⟩
    · simp
  have honly : ∀ x ∈ (put d n v).map Prod.snd, isModel x = true → x = v := by
    intro x hx hm
    obtain ⟨e, he, rfl⟩ := List.mem_map.1 hx
    unfold put at he
    split_ifs at he
    · obtain ⟨y, hy, rfl⟩ := List.mem_map.1 he
      split_ifs at hm ⊢ with hn
      · rfl
      · rw [h y hy] at hm; cases hm
    · rcases List.mem_append.1 he with he | he
      · rw [h e he] at hm; cases hm
      · rw [List.mem_singleton] at he
        rw [he]
  cases hf : ((put d n v).map Prod.snd).find? isModel with
  | none => exact absurd hv (by simpa using List.find?_eq_none.1 hf v hmem)
  | some x => rw [honly x (List.mem_of_find?_eq_some hf) (List.find?_some hf)]

/-- The assignments of one process. -/
def Script.processBlock (i : Nat) (p : PyProc K) : List (Name × Expr K) :=
  [(.var "coordinates", .value (.points (p.coords.map savedCoord))),
   (.var "elements_before", .value (.names p.before)),
   (.var "elements_after", .value (.names p.after)),
   (.var "move_vectors", .value (.moves (if p.moves.isEmpty then none
     else some (p.moves.map fun m => ((m.1 : Int), savedCoord m.2))))),
   (.var "basis_sites", .value (.ints (p.basisSites.map fun b : Nat => (b : Int)))),
   (.var "rate_constant", .value (.number (saved p.rate))),
   (.process i, .process (.var "coordinates") (.var "elements_before") (.var "elements_after") (.var "move_vectors")
     (.var "basis_sites") (.var "rate_constant"))]

/-- The dict after the assignments of one process that has been read as `q`. -/
def Script.processPuts (i : Nat) (p q : PyProc K) (d : Dict K) : Dict K :=
  put (put (put (put (put (put (put d (.var "coordinates") (.points (p.coords.map savedCoord)))
    (.var "elements_before") (.names p.before)) (.var "elements_after") (.names p.after))
    (.var "move_vectors") (.moves (if p.moves.isEmpty then none else some (p.moves.map fun m => ((m.1 : Int), savedCoord m.2)))))
    (.var "basis_sites") (.ints (p.basisSites.map fun b : Nat => (b : Int)))) (.var "rate_constant") (.number (saved p.rate)))
    (.process i) (.process (.plain q))

theorem Script.assign_value (d : Dict K) (n : Name) (v : Val K) : assign d (n, .value v) = .ok (put d n v) := rfl

theorem Script.exec_process (i : Nat) (p : PyProc K) (d : Dict K) :
    loopM assign (processBlock i p) d = (reread p >>= fun q => .ok (processPuts i p q d)) := by
  unfold processBlock
  simp only [loopM_cons, assign_value, ok_bind]
  unfold assign eval
  simp only [get_put, Name.var.injEq, String.reduceEq, if_true, if_false, ok_bind]
  show ((reread p >>= fun q => Except.ok (Val.process (.plain q))) >>= _) >>= _ = _
  cases reread p <;> rfl

/-- The dict after the assignments of all processes, from number `n` on. -/
def Script.fill : Nat → List (PyProc K) → List (PyProc K) → Dict K → Dict K
  | n, p :: ps, q :: qs, d => fill (n + 1) ps qs (processPuts n p q d)
  | _, _, _, d => d

theorem Script.exec_processes (ps : List (PyProc K)) : ∀ (n : Nat) (d : Dict K),
    loopM assign ((ps.zipIdx n).map (fun x => processBlock x.2 x.1)).flatten d =
      (mapMM reread ps >>= fun qs => .ok (fill n ps qs d)) := by
  induction ps with
  | nil => intro n d; rfl
  | cons p ps ih =>
    intro n d
    rw [List.zipIdx_cons, List.map_cons, List.flatten_cons, loopM_append, exec_process]
    simp only [mapMM]
    cases hp : reread p with
    | error e => rfl
    | ok q =>
      simp only [ok_bind]
      rw [ih]
      cases mapMM reread ps <;> rfl

theorem Script.get_fill_var {s : String}
    (hs : s ∉ ["coordinates", "elements_before", "elements_after", "move_vectors", "basis_sites", "rate_constant"]) :
    ∀ (ps qs : List (PyProc K)) (n : Nat) (d : Dict K), get (fill n ps qs d) (.var s) = get d (.var s)
  | [], _, _, _ => rfl
  | _ :: _, [], _, _ => rfl
  | p :: ps, q :: qs, n, d => by
    unfold fill
    rw [get_fill_var hs ps qs]
    simp only [List.mem_cons, List.not_mem_nil, or_false, not_or] at hs
    obtain ⟨h1, h2, h3, h4, h5, h6⟩ := hs
    unfold processPuts
    simp only [get_put, Name.var.injEq, Ne.symm h1, Ne.symm h2, Ne.symm h3, Ne.symm h4, Ne.symm h5, Ne.symm h6, if_false,
      reduceCtorEq]

theorem Script.get_fill_lt {k : Nat} :
    ∀ (ps qs : List (PyProc K)) (n : Nat) (d : Dict K), k < n → get (fill n ps qs d) (.process k) = get d (.process k)
  | [], _, _, _, _ => rfl
  | _ :: _, [], _, _, _ => rfl
  | p :: ps, q :: qs, n, d, h => by
    unfold fill
    rw [get_fill_lt ps qs _ _ (by omega)]
    unfold processPuts
    simp only [get_put, Name.process.injEq, show ¬ n = k by omega, if_false, reduceCtorEq]

theorem Script.get_fill {k : Nat} {q : PyProc K} :
    ∀ (ps qs : List (PyProc K)) (n : Nat) (d : Dict K), qs.length = ps.length → qs[k]? = some q →
      get (fill n ps qs d) (.process (n + k)) = .ok (.process (.plain q))
  | _, [], _, _, _, h => by simp at h
  | [], _ :: _, _, _, hl, _ => by simp at hl
  | p :: ps, r :: qs, n, d, hl, h => by
    unfold fill
    cases k with
    | zero =>
      simp only [List.length_cons, Nat.zero_lt_succ, getElem?_pos, List.getElem_cons_zero, Option.some.injEq] at h
      subst h
      rw [get_fill_lt ps qs _ _ (by omega)]
      unfold processPuts
      rw [get_put, if_pos (by rw [Nat.add_zero])]
    | succ k =>
      rw [show n + (k + 1) = n + 1 + k by omega]
      exact get_fill ps qs (n + 1) _ (by simpa using hl) (by simpa using h)

theorem Script.noModel_processPuts {d : Dict K} (h : NoModel d) (n : Nat) (p q : PyProc K) : NoModel (processPuts n p q d) := by
  unfold processPuts
  exact noModel_put (noModel_put (noModel_put (noModel_put (noModel_put (noModel_put (noModel_put h _ rfl) _ rfl) _ rfl) _ rfl)
    _ rfl) _ rfl) _ rfl

theorem Script.noModel_fill : ∀ (ps qs : List (PyProc K)) (n : Nat) (d : Dict K), NoModel d → NoModel (fill n ps qs d)
  | [], _, _, _, h => h
  | _ :: _, [], _, _, h => h
  | p :: ps, q :: qs, n, _, h => noModel_fill ps qs (n + 1) _ (noModel_processPuts h n p q)

theorem Script.mapMM_plain (ps : List (PyProc K)) (n : Nat) :
    mapMM (fun x : PyProcess K × Nat => processScript x.2 x.1) ((ps.map PyProcess.plain).zipIdx n) =
      .ok ((ps.zipIdx n).map (fun x => processBlock x.2 x.1)) := by
  rw [mapMM_ok_iff]
  induction ps generalizing n with
  | nil => exact .nil
  | cons p ps ih => exact .cons rfl (ih (n + 1))

/-- The dict after the assignments of a configuration. -/
def Script.configurationPuts (c : PyConf K) (l : List String) (u : PyUnitCell K) (P : PyLattice K) (c' : PyConf K) : Dict K :=
  put (put (put (put (put (put (put [] (.var "cell_vectors") (.rows [row c.cell.a, row c.cell.b, row c.cell.c]))
    (.var "basis_points") (.rows (c.cell.basis.map row))) (.var "unit_cell") (.cell u)) (.var "lattice") (.lattice u P))
    (.var "types") (.names l)) (.var "possible_types") (.names (possibleNames c.possible)))
    (.var "configuration") (.configuration c')

/-- The configuration that the script of a configuration makes, with its unit cell and lattice. -/
def Script.rereadConfiguration (c : PyConf K) (l : List String) : M (PyUnitCell K × PyLattice K × PyConf K) := do
  let u ← rereadCell c.cell
  let P ← PyLattice.make u (some [(c.repA : Int), (c.repB : Int), (c.repC : Int)]) (some c.periodic)
  let c' ← makeConfiguration u P l (possibleNames c.possible)
  return (u, P, c')

theorem Script.assign_cell {d : Dict K} {n a b : Name} {x y : List (List K)} (h1 : get d a = .ok (.rows x))
    (h2 : get d b = .ok (.rows y)) :
    assign d (n, .unitCell a b) = (PyUnitCell.make x y >>= fun u => .ok (put d n (.cell u))) := by
  unfold assign eval
  simp only [h1, h2, ok_bind]
  cases PyUnitCell.make x y <;> rfl

theorem Script.assign_lattice {d : Dict K} {n a : Name} {u : PyUnitCell K} {r : List Int} {p : List Bool}
    (h : get d a = .ok (.cell u)) :
    assign d (n, .lattice a r p) = (PyLattice.make u (some r) (some p) >>= fun P => .ok (put d n (.lattice u P))) := by
  unfold assign eval
  simp only [h, ok_bind]
  cases PyLattice.make u (some r) (some p) <;> rfl

theorem Script.assign_configuration {d : Dict K} {n a b e : Name} {u : PyUnitCell K} {P : PyLattice K} {x y : List String}
    (h1 : get d a = .ok (.lattice u P)) (h2 : get d b = .ok (.names x)) (h3 : get d e = .ok (.names y)) :
    assign d (n, .configuration a b e) = (makeConfiguration u P x y >>= fun c => .ok (put d n (.configuration c))) := by
  unfold assign eval
  simp only [h1, h2, h3, ok_bind]
  cases makeConfiguration u P x y <;> rfl

theorem Script.exec_configuration (c : PyConf K) (l : List String) (hl : c.types = .names l) :
    ∃ s, configurationScript c = .ok s ∧
      exec s = (rereadConfiguration c l >>= fun r => .ok (configurationPuts c l r.1 r.2.1 r.2.2)) := by
  unfold configurationScript
  rw [hl]
  refine ⟨_, rfl, ?_⟩
  unfold exec latticeScript cellScript rereadConfiguration
  simp only [List.cons_append, List.nil_append, loopM_cons, assign_value, ok_bind]
  rw [assign_cell (x := [row c.cell.a, row c.cell.b, row c.cell.c]) (y := c.cell.basis.map row) (by simp [get_put]) (by simp [get_put])]
  show (rereadCell c.cell >>= _) >>= _ = _
  cases rereadCell c.cell with
  | error e => rfl
  | ok u =>
    rw [ok_bind, ok_bind, ok_bind, loopM_cons]
    rw [assign_lattice (u := u) (by simp [get_put])]
    cases PyLattice.make u (some [(c.repA : Int), (c.repB : Int), (c.repC : Int)]) (some c.periodic) with
    | error e => rfl
    | ok P =>
      simp only [ok_bind, loopM_cons, assign_value]
      rw [assign_configuration (u := u) (P := P) (x := l) (y := possibleNames c.possible) (by simp [get_put]) (by simp [get_put])
        (by simp [get_put, possibleNames])]
      cases makeConfiguration u P l (possibleNames c.possible) with
      | error e => rfl
      | ok c' => rfl

/-- C56. Reading a saved model makes its unit cell, lattice, configuration and processes anew, each from its own rounded
numbers, and gives the model made of them, without its rate calculator; if one of them is rejected there is an error. Partial:
models without buckets; for the text of names and numbers see `C56_names` and `C56_number`. -/
theorem C56_model_partial (c : PyConf K) (l : List String) (i : PyInter K) (ps : List (PyProc K)) (hl : c.types = .names l)
    (hps : i.processes = ps.map .plain) (hne : ps ≠ []) :
    ∃ s, modelScript c i = .ok s ∧
      component isModel s = (do
        let r ← rereadConfiguration c l
        let qs ← mapMM reread ps
        return some (.model r.2.2 ⟨qs.map .plain, i.implicitWildcards, none⟩)) := by
  obtain ⟨a, ha, hexec⟩ := exec_configuration c l hl
  refine ⟨a ++ (((ps.zipIdx).map (fun x => processBlock x.2 x.1)).flatten ++
      [(.var "processes", .list ((List.range ps.length).map Name.process)),
       (.var "interactions", .interactions (.var "processes") i.implicitWildcards)]) ++
      [(.var "model", .model (.var "configuration") (.var "interactions"))], ?_, ?_⟩
  · unfold modelScript interactionsScript
    rw [ha, hps, ok_bind, mapMM_plain, ok_bind, List.length_map]
    rfl
  · unfold component
    unfold exec at hexec ⊢
    rw [loopM_append, loopM_append, hexec]
    cases rereadConfiguration c l with
    | error e => rfl
    | ok r =>
      simp only [ok_bind]
      rw [loopM_append, exec_processes]
      cases hqs : mapMM reread ps with
      | error e => rfl
      | ok qs =>
        have hlen := mapMM_length hqs
        simp only [ok_bind]
        have hno : NoModel (fill 0 ps qs (configurationPuts c l r.1 r.2.1 r.2.2)) := by
          apply noModel_fill
          unfold configurationPuts
          refine noModel_put (noModel_put (noModel_put (noModel_put (noModel_put (noModel_put (noModel_put ?_ _ rfl) _ rfl) _ rfl)
            _ rfl) _ rfl) _ rfl) _ rfl
          intro e he
          cases he
        have hconf : get (fill 0 ps qs (configurationPuts c l r.1 r.2.1 r.2.2)) (.var "configuration") =
            .ok (.configuration r.2.2) := by
          rw [get_fill_var (by decide)]
          unfold configurationPuts
          simp only [get_put, if_true]
        have hget : ∀ k q, qs[k]? = some q → get (fill 0 ps qs (configurationPuts c l r.1 r.2.1 r.2.2)) (.process k) =
            .ok (.process (.plain q)) := by
          intro k q hk
          have := get_fill ps qs 0 (configurationPuts c l r.1 r.2.1 r.2.2) hlen hk
          rwa [Nat.zero_add] at this
        generalize fill 0 ps qs (configurationPuts c l r.1 r.2.1 r.2.2) = D at hno hconf hget
        have hlist : mapMM (get D) ((List.range ps.length).map Name.process) =
            .ok (qs.map (fun q => Val.process (.plain q))) := by
          rw [mapMM_ok_iff, List.forall₂_map_left_iff, List.forall₂_map_right_iff, ← hlen, List.forall₂_iff_get]
          refine ⟨by simp, ?_⟩
          intro k h1 h2
          simp only [List.get_eq_getElem, List.getElem_range]
          exact hget k _ (List.getElem?_eq_getElem h2)
        have hproc : mapMM asProcess (qs.map (fun q => Val.process (.plain q))) = .ok (qs.map PyProcess.plain) := by
          rw [mapMM_ok_iff, List.forall₂_map_left_iff, List.forall₂_map_right_iff]
          exact List.forall₂_same.2 fun q _ => rfl
        have hqne : (qs.map (PyProcess.plain (K := K))).isEmpty = false := by
          rw [List.isEmpty_eq_false_iff]
          intro he
          rw [List.map_eq_nil_iff] at he
          rw [he] at hlen
          exact hne (List.length_eq_zero_iff.1 hlen.symm)
        have s1 : assign D (.var "processes", .list ((List.range ps.length).map Name.process)) =
            .ok (put D (.var "processes") (.processes (qs.map .plain))) := by
          unfold assign eval
          simp only [hlist, hproc, ok_bind]
          rfl
        have s2 : assign (put D (.var "processes") (.processes (qs.map .plain)))
            (.var "interactions", .interactions (.var "processes") i.implicitWildcards) =
            .ok (put (put D (.var "processes") (.processes (qs.map .plain))) (.var "interactions")
              (.interactions ⟨qs.map .plain, i.implicitWildcards, none⟩)) := by
          unfold assign eval
          simp only [get_put, if_true, ok_bind, hqne]
          rfl
        have s3 : assign (put (put D (.var "processes") (.processes (qs.map .plain))) (.var "interactions")
              (.interactions ⟨qs.map .plain, i.implicitWildcards, none⟩))
            (.var "model", .model (.var "configuration") (.var "interactions")) =
            .ok (put (put (put D (.var "processes") (.processes (qs.map .plain))) (.var "interactions")
              (.interactions ⟨qs.map .plain, i.implicitWildcards, none⟩)) (.var "model")
              (.model r.2.2 ⟨qs.map .plain, i.implicitWildcards, none⟩)) := by
          unfold assign eval
          simp only [get_put, Name.var.injEq, String.reduceEq, if_true, if_false, ok_bind, hconf]
          rfl
        simp only [loopM_cons, loopM_nil, s1, s2, s3, ok_bind]
        rw [find_model (noModel_put (noModel_put hno _ rfl) _ rfl) _ rfl]

/-- C56. A model with short numbers and distinct places comes back the same, except for its rate calculator. Partial: the
conditions of `C56_process_exact_partial`, `C56_configuration_partial` and `C56_model_partial`. -/
theorem C56_model_exact_partial (cell basis : List (List K)) (reps : Option (List Int)) (per : Option (List Bool))
    (u : PyUnitCell K) (P : PyLattice K) (types : List Py) (default : Option Py) (possible : Option (List String))
    (l : List String) (pt : List (String × Nat)) (ps : List (PyProc K)) (w : Bool) (calculator : Option (Calculator K))
    (hu : PyUnitCell.make cell basis = .ok u) (hP : PyLattice.make u reps per = .ok P)
    (hp : ∀ l, possible = some l → l.Nodup) (hf : PyConfig.detect types ≠ .ok .buckets)
    (h : PyConfig.elements P types default possible = .ok (l.map (fun t => [t]), pt)) (hne : ps ≠ [])
    (hs : ∀ r ∈ cell ++ basis, ∀ x ∈ r, Short x)
    (hmake : ∀ p ∈ ps, ∃ coords before after moves sites rate, PyProc.make coords before after moves sites rate = .ok p)
    (hsep : ∀ p ∈ ps, p.coords.Pairwise (fun a b => 2 / 100000000 ≤ |a.x - b.x| + |a.y - b.y| + |a.z - b.z|))
    (hshort : ∀ p ∈ ps, (∀ c ∈ p.coords, ShortCoord c) ∧ (∀ m ∈ p.moves, ShortCoord m.2) ∧ Short p.rate) :
    ∃ s, modelScript ⟨u, P.repA, P.repB, P.repC, [P.perA, P.perB, P.perC], .names l, pt⟩ ⟨ps.map .plain, w, calculator⟩ = .ok s ∧
      component isModel s = .ok (some (.model ⟨u, P.repA, P.repB, P.repC, [P.perA, P.perB, P.perC], .names l, pt⟩
        ⟨ps.map .plain, w, none⟩)) := by
  obtain ⟨s, h1, h2⟩ := C56_model_partial ⟨u, P.repA, P.repB, P.repC, [P.perA, P.perB, P.perC], .names l, pt⟩ l
    ⟨ps.map .plain, w, calculator⟩ ps rfl rfl hne
  refine ⟨s, h1, ?_⟩
  obtain ⟨k1, k2⟩ := C56_configuration_partial u reps per P types default possible l pt hP hp hf h
  have hps : mapMM reread ps = .ok ps := by
    rw [mapMM_ok_iff, List.forall₂_same]
    intro p hpm
    obtain ⟨coords, before, after, moves, sites, rate, hm⟩ := hmake p hpm
    exact C56_process_exact_partial _ _ _ _ _ _ p hm (fun _ => hsep p hpm) (hshort p hpm).1 (hshort p hpm).2.1 (hshort p hpm).2.2
  rw [h2]
  unfold rereadConfiguration
  simp only [C56_cell_exact cell basis u hu hs, k1, k2, hps, ok_bind, pure_ok]

/-- C56. Models with buckets cannot be saved: neither a configuration with buckets nor a bucket process has a script. -/
theorem C56_buckets_fail (c : PyConf K) (i : PyInter K)
    (h : (∃ l, c.types = .buckets l) ∨ ∃ p, PyProcess.bucket p ∈ i.processes) : ∃ e, modelScript c i = .error e := by
  have hex : ∀ s, modelScript c i ≠ .ok s := by
    intro s hs
    unfold modelScript at hs
    obtain ⟨a, ha, hs⟩ := bind_ok.1 hs
    obtain ⟨b, hb, -⟩ := bind_ok.1 hs
    rcases h with ⟨l, hl⟩ | ⟨p, hp⟩
    · unfold configurationScript at ha
      rw [hl] at ha
      cases ha
    · unfold interactionsScript at hb
      obtain ⟨x, hx, -⟩ := bind_ok.1 hb
      obtain ⟨k, hk⟩ := List.mem_iff_getElem?.1 hp
      have hmem : (PyProcess.bucket p, k) ∈ i.processes.zipIdx := by
        rw [List.mem_iff_getElem?]
        exact ⟨k, by rw [List.getElem?_zipIdx, hk]; simp⟩
      rw [mapMM_ok_iff] at hx
      obtain ⟨y, hy⟩ := forall₂_left hx _ hmem
      cases hy
  cases hm : modelScript c i with
  | error e => exact ⟨e, rfl⟩
  | ok s => exact absurd hm (hex s)

end

/-- A chain of four sites with an exchange of neighbours. -/
example : ∃ (u : PyUnitCell ℚ) (P : PyLattice ℚ) (pt : List (String × Nat)) (p : PyProc ℚ) (s : List (Name × Expr ℚ)),
    modelScript ⟨u, P.repA, P.repB, P.repC, [P.perA, P.perB, P.perC], .names ["A", "B", "A", "A"], pt⟩ ⟨[.plain p], true, none⟩ = .ok s ∧
    p.moves ≠ [] ∧ P.sites.length = 4 ∧
      component isModel s = .ok (some (.model ⟨u, P.repA, P.repB, P.repC, [P.perA, P.perB, P.perC], .names ["A", "B", "A", "A"], pt⟩
        ⟨[.plain p], true, none⟩)) := by
  have h0 : Short (0 : ℚ) := ⟨0, 0, by norm_num, by norm_num⟩
  have h1 : Short (1 : ℚ) := ⟨1, 0, by norm_num, by norm_num⟩
  have h2 : Short (-1 : ℚ) := ⟨1, 0, by norm_num, by norm_num⟩
  obtain ⟨s, s1, s2⟩ := C56_model_exact_partial (K := ℚ) [[1, 0, 0], [0, 1, 0], [0, 0, 1]] [[0, 0, 0]] (some [4, 1, 1])
    (some [true, true, true]) ⟨⟨1, 0, 0⟩, ⟨0, 1, 0⟩, ⟨0, 0, 1⟩, [⟨0, 0, 0⟩]⟩ ⟨[⟨0, 0, 0⟩], 4, 1, 1, true, true, true⟩
    (["A", "B", "A", "A"].map Py.str) none none ["A", "B", "A", "A"] [("*", 0), ("A", 1), ("B", 2)]
    [⟨[⟨0, 0, 0⟩, ⟨1, 0, 0⟩], ["A", "B"], ["B", "A"], [(0, ⟨1, 0, 0⟩), (1, ⟨-1, 0, 0⟩)], [0], 1⟩] true none
    (by decide +kernel) rfl (by simp) (by decide +kernel) (by decide +kernel) (by simp) (by simp [h0, h1])
    (by
      intro p hp
      rw [List.mem_singleton] at hp
      subst hp
      exact ⟨[⟨0, 0, 0⟩, ⟨1, 0, 0⟩], ["A", "B"], ["B", "A"], none, [0], 1, by decide +kernel⟩)
    (by
      intro p hp
      rw [List.mem_singleton] at hp
      subst hp
      norm_num)
    (by
      intro p hp
      rw [List.mem_singleton] at hp
      subst hp
      refine ⟨?_, ?_, h1⟩
      · intro c hc
        simp only [List.mem_cons, List.not_mem_nil, or_false] at hc
        rcases hc with rfl | rfl
        · exact ⟨h0, h0, h0⟩
        · exact ⟨h1, h0, h0⟩
      · intro m hm
        simp only [List.mem_cons, List.not_mem_nil, or_false] at hm
        rcases hm with rfl | rfl
        · exact ⟨h1, h0, h0⟩
        · exact ⟨h2, h0, h0⟩)
  exact ⟨_, _, _, _, s, s1, by decide, by decide +kernel, s2⟩

/-! ### The stored types -/

/-- C56. The types that are saved are those at the last query of the types, whatever has happened in the back end since. -/
theorem C56_stored_types (s t r : Stored) (later : List Use) (hq : s.use .types = .ok t)
    (hlater : Use.types ∉ later) (hr : loopM Stored.use later t = .ok r) :
    r.types = t.types ∧ t.types.length = s.elements.length ∧
      ∀ (k : Nat) (e : List String), s.elements[k]? = some e → ∃ n, e[0]? = some n ∧ t.types[k]? = some n := by
  have hkeep : ∀ (later : List Use) (t : Stored), Use.types ∉ later → loopM Stored.use later t = .ok r → r.types = t.types := by
    intro later
    induction later with
    | nil => intro t _ h; cases h; rfl
    | cons x later ih =>
      intro t hn h
      rw [List.mem_cons, not_or] at hn
      rw [loopM_cons] at h
      obtain ⟨t', h1, h2⟩ := bind_ok.1 h
      rw [ih t' hn.2 h2]
      cases x with
      | backend => cases h1; rfl
      | types => exact absurd rfl hn.1
      | step e => cases h1; rfl
  obtain ⟨l, h1, h2⟩ := bind_ok.1 hq
  cases h2
  refine ⟨hkeep later _ hlater hr, mapMM_length h1, ?_⟩
  intro k e hk
  obtain ⟨y, y1, y2⟩ := mapMM_getElem? h1 hk
  unfold firstName at y2
  split at y2
  · cases y2; exact ⟨_, rfl, y1⟩
  · cases y2

/-- C56. A list of processes can only be made of processes: anything else in it raises. -/
theorem C56_list {K : Type _} [Field K] [LinearOrder K] [FloorRing K] (d : Dict K) (ns : List Name) :
    (∀ (vs : List (Val K)), mapMM (get d) ns = .ok vs → (∃ v ∈ vs, ∀ p, v ≠ .process p) → eval d (.list ns) = .error .exception) ∧
    ∀ v, eval d (.list ns) = .ok v → ∃ ps, v = .processes ps ∧ mapMM (get d) ns = .ok (ps.map .process) := by
  constructor
  · intro vs hv hbad
    have key : mapMM asProcess vs = .error .exception := by
      clear hv
      induction vs with
      | nil => obtain ⟨v, hv, -⟩ := hbad; cases hv
      | cons w vs ih =>
        rw [mapMM_cons]
        cases hw : asProcess w with
        | error e =>
          unfold asProcess at hw
          split at hw
          · cases hw
          · cases hw; rfl
        | ok p =>
          rw [ok_bind, ih]
          · rfl
          · obtain ⟨v, hv, hn⟩ := hbad
            rcases List.mem_cons.1 hv with rfl | hv
            · unfold asProcess at hw
              split at hw
              · exact absurd rfl (hn _)
              · cases hw
            · exact ⟨v, hv, hn⟩
    show (mapMM (get d) ns >>= fun vs => mapMM asProcess vs >>= fun ps => pure (Val.processes ps)) = _
    rw [hv, ok_bind, key]
    rfl
  · intro v h
    unfold eval at h
    obtain ⟨vs, h1, h⟩ := bind_ok.1 h
    obtain ⟨ps, h2, h⟩ := bind_ok.1 h
    cases h
    have key : ∀ (vs : List (Val K)) (ps : List (PyProcess K)), List.Forall₂ (fun x y => asProcess x = .ok y) vs ps →
        vs = ps.map .process := by
      intro vs ps h
      induction h with
      | nil => rfl
      | @cons a b l l' hab _ ih =>
        rw [List.map_cons, ← ih]
        unfold asProcess at hab
        split at hab
        · cases hab; rfl
        · cases hab
    exact ⟨ps, rfl, by rw [h1, key vs ps (mapMM_ok_iff.1 h2)]⟩

example : eval ([] : Dict ℚ) (.list []) = .ok (.processes []) := rfl

theorem Script.put_names {K : Type _} {d : Dict K} {m n : Name} {v : Val K} (hmn : m ≠ n) (h : ∀ e ∈ d, e.1 ≠ n) : ∀ e ∈ put d m v, e.1 ≠ n := by
  intro e he
  unfold put at he
  split at he
  · obtain ⟨x, hx, rfl⟩ := List.mem_map.1 he
    split
    · exact h x hx
    · exact h x hx
  · rcases List.mem_append.1 he with he | he
    · exact h e he
    · rw [List.mem_singleton.1 he]
      exact hmn

/-- C56. A script that uses a name which it has not assigned before fails, with an exception. -/
theorem C56_unknown {K : Type _} [Field K] [LinearOrder K] [FloorRing K] (script : List (Name × Expr K)) (d : Dict K)
    (hd : exec script = .ok d) (n m : Name) (hn : ∀ e ∈ script, e.1 ≠ n) (w : Bool) (r : List Int) (p : List Bool) (b : Name) :
    exec (script ++ [(m, .interactions n w)]) = .error .exception ∧ exec (script ++ [(m, .lattice n r p)]) = .error .exception ∧
    exec (script ++ [(m, .unitCell n b)]) = .error .exception ∧ exec (script ++ [(m, .model n b)]) = .error .exception := by
  have key : ∀ (script : List (Name × Expr K)) (d0 d : Dict K), loopM assign script d0 = .ok d → (∀ e ∈ script, e.1 ≠ n) →
      (∀ e ∈ d0, e.1 ≠ n) → ∀ e ∈ d, e.1 ≠ n := by
    intro script
    induction script with
    | nil =>
      intro d0 d h _ h0
      obtain rfl := Except.ok.inj h
      exact h0
    | cons e script ih =>
      intro d0 d h hs h0
      rw [loopM_cons] at h
      obtain ⟨d1, h1, h⟩ := bind_ok.1 h
      unfold assign at h1
      obtain ⟨v, -, h1⟩ := bind_ok.1 h1
      obtain rfl := Except.ok.inj h1
      exact ih _ d h (fun x hx => hs x (List.mem_cons_of_mem _ hx)) (Script.put_names (hs e List.mem_cons_self) h0)
  have hno : Script.get d n = .error .exception := by
    unfold Script.get
    rw [List.find?_eq_none.2 fun e he => by simpa using key script [] d hd hn (fun e he => by cases he) e he]
  unfold exec at hd ⊢
  simp only [loopM_append, hd, ok_bind, loopM_cons]
  unfold assign eval
  simp only [hno]
  exact ⟨rfl, rfl, rfl, rfl⟩

/-- Non-vacuity: a script with one variable, used under another name. -/
example : ∃ d, exec ([(.var "cell_vectors", .value (.rows []))] : List (Name × Expr ℚ)) = .ok d ∧
    ∀ e ∈ ([(.var "cell_vectors", .value (.rows []))] : List (Name × Expr ℚ)), e.1 ≠ .var "unit_cell" :=
  ⟨_, rfl, fun e he => by rw [List.mem_singleton.1 he]; decide⟩

/-- C56. After steps without a query the types at the beginning are saved; after a query those at that time. -/
theorem C56_stored_stale :
    loopM Stored.use [.backend, .step [["B"], ["A"]]] ⟨["A", "B"], none⟩ = .ok ⟨["A", "B"], some [["B"], ["A"]]⟩ ∧
    loopM Stored.use [.backend, .step [["B"], ["A"]], .types] ⟨["A", "B"], none⟩ = .ok ⟨["B", "A"], some [["B"], ["A"]]⟩ :=
  ⟨rfl, rfl⟩

end KMC

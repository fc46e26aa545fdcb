import Verif.Lemmas.Monad
import Verif.Model.PyTypes
import Mathlib.Algebra.BigOperators.Group.List.Basic

/-!
# Bucket input: the loops of the normalisation on well formed entries
-/

namespace KMC
namespace BucketInput

/-- A number and a name as a Python tuple. -/
def enc (p : Int × String) : List Py := [.int p.1, .str p.2]

theorem enc_beq (a b : String) : (Py.str a).eq (Py.str b) = decide (a = b) := by
  rw [Py.eq]

theorem addSame_enc {N : List (Int × String)} {i j : Nat} {a : Int} {s : String} {skip : List Nat} {e : Int × String}
    (h : N[i + j + 1]? = some e) :
    addSame (N.map enc) i (enc (a, s), skip) j =
      .ok (if s = e.2 then (enc (a + e.1, s), skip ++ [i + j + 1]) else (enc (a, s), skip)) := by
  have h' : (N.map enc)[i + j + 1]? = some (enc e) := by rw [List.getElem?_map, h]; rfl
  unfold addSame
  rw [h']
  show (if (Py.str s).eq (Py.str e.2) = true then _ else _) = _
  rw [enc_beq]
  by_cases hs : s = e.2
  · simp only [hs, decide_true, if_true]
    rfl
  · simp only [hs, decide_false, if_false]
    rfl

theorem addLoop_enc {N : List (Int × String)} {i : Nat} : ∀ (js : List Nat) (a : Int) (s : String) (skip : List Nat),
    (∀ j ∈ js, i + j + 1 < N.length) →
    loopM (addSame (N.map enc) i) js (enc (a, s), skip) =
      .ok (enc (a + ((js.filterMap (fun j => N[i + j + 1]?)).filter (fun e => decide (e.2 = s))
          |>.map (·.1)).sum, s),
        skip ++ (js.filter (fun j => decide ((N[i + j + 1]?).map (·.2) = some s))).map (fun j => i + j + 1))
  | [], a, s, skip, _ => by simp
  | j :: js, a, s, skip, hlt => by
    have hj := hlt j (by simp)
    have hg : N[i + j + 1]? = some N[i + j + 1] := List.getElem?_eq_getElem hj
    rw [loopM_cons, addSame_enc hg, ok_bind]
    by_cases hs : s = N[i + j + 1].2
    · rw [if_pos hs, addLoop_enc js _ _ _ (fun k hk => hlt k (by simp [hk]))]
      rw [List.filterMap_cons_some (f := fun j => N[i + j + 1]?) hg, List.filter_cons_of_pos (by simp [hs]),
        List.filter_cons_of_pos (by rw [hg]; simp [hs]), List.map_cons, List.map_cons, List.sum_cons]
      rw [show a + N[i + j + 1].1 + _ = a + (N[i + j + 1].1 + _) from add_assoc _ _ _, List.append_assoc]
      rfl
    · rw [if_neg hs, addLoop_enc js _ _ _ (fun k hk => hlt k (by simp [hk]))]
      rw [List.filterMap_cons_some (f := fun j => N[i + j + 1]?) hg, List.filter_cons_of_neg (by simpa using Ne.symm hs),
        List.filter_cons_of_neg (by rw [hg]; simpa using Ne.symm hs)]

theorem filterMap_range_drop {α : Type _} (N : List α) (i : Nat) :
    (List.range (N.length - i - 1)).filterMap (fun j => N[i + j + 1]?) = N.drop (i + 1) := by
  apply List.ext_getElem?
  have key : (List.range (N.length - i - 1)).filterMap (fun j => N[i + j + 1]?) =
      (List.range (N.length - i - 1)).filterMap (fun j => (N.drop (i + 1))[j]?) := by
    apply List.filterMap_congr
    intro j _
    rw [List.getElem?_drop]
    congr 1
    omega
  have hlen : N.length - i - 1 = (N.drop (i + 1)).length := by rw [List.length_drop]; omega
  intro k
  rw [key, hlen]
  generalize N.drop (i + 1) = l
  congr 1
  induction l with
  | nil => rfl
  | cons x l ih =>
    rw [List.length_cons, List.range_succ_eq_map, List.filterMap_cons_some (b := x) (by simp), List.filterMap_map]
    congr 1

theorem shortCollect_congr : ∀ (l : List (Int × String)) {a b : List String}, (∀ s, s ∈ a ↔ s ∈ b) →
    shortCollect a l = shortCollect b l
  | [], _, _, _ => rfl
  | e :: t, a, b, h => by
    unfold shortCollect
    by_cases he : e.2 ∈ a
    · rw [if_pos he, if_pos ((h _).1 he)]
      exact shortCollect_congr t h
    · rw [if_neg he, if_neg (fun hb => he ((h _).2 hb))]
      rw [shortCollect_congr t (a := a ++ [e.2]) (b := b ++ [e.2]) (by intro s; simp [h s])]

theorem collect_enc (N : List (Int × String)) : ∀ (suf pre : List (Int × String)) (final : List (List Py)) (skip : List Nat),
    N = pre ++ suf →
    (∀ k, pre.length ≤ k → ∀ e, N[k]? = some e → (k ∈ skip ↔ e.2 ∈ pre.map (·.2))) →
    ∃ sk, loopM (collectStep (N.map enc)) ((suf.map enc).zipIdx pre.length) (final, skip) =
      .ok (final ++ (shortCollect (pre.map (·.2)) suf).map enc, sk)
  | [], pre, final, skip, _, _ => ⟨skip, by simp [shortCollect]⟩
  | e :: suf, pre, final, skip, hN, hskip => by
    have he : N[pre.length]? = some e := by rw [hN]; simp
    have hN' : N = (pre ++ [e]) ++ suf := by rw [hN]; simp
    have hlen' : (pre ++ [e]).length = pre.length + 1 := by simp
    rw [List.map_cons, List.zipIdx_cons, loopM_cons]
    have hmem := hskip pre.length (le_refl _) e he
    by_cases hm : pre.length ∈ skip
    · have htaken : e.2 ∈ pre.map (·.2) := hmem.1 hm
      have h1 : collectStep (N.map enc) (final, skip) (enc e, pre.length) = .ok (final, skip) := by
        unfold collectStep
        rw [if_pos hm]
      rw [h1, ok_bind]
      obtain ⟨sk, hsk⟩ := collect_enc N suf (pre ++ [e]) final skip hN' (by
        intro k hk f hf
        rw [hskip k (by rw [hlen'] at hk; omega) f hf, List.map_append, List.mem_append]
        constructor
        · exact fun h => Or.inl h
        · rintro (h | h)
          · exact h
          · rw [List.map_singleton, List.mem_singleton] at h
            rw [h]; exact htaken)
      rw [hlen'] at hsk
      refine ⟨sk, ?_⟩
      rw [hsk]
      conv_rhs => unfold shortCollect
      rw [if_pos htaken, shortCollect_congr suf (a := (pre ++ [e]).map (·.2)) (b := pre.map (·.2))]
      intro s
      rw [List.map_append, List.mem_append]
      constructor
      · rintro (h | h)
        · exact h
        · rw [List.map_singleton, List.mem_singleton] at h
          rw [h]; exact htaken
      · exact fun h => Or.inl h
    · have htaken : e.2 ∉ pre.map (·.2) := fun h => hm (hmem.2 h)
      have hNl : N.length = pre.length + 1 + suf.length := by rw [hN]; simp; omega
      have h1 : collectStep (N.map enc) (final, skip) (enc e, pre.length) =
          .ok (final ++ [enc (e.1 + ((suf.filter (fun x => decide (x.2 = e.2))).map (·.1)).sum, e.2)],
            skip ++ ((List.range (N.length - pre.length - 1)).filter
              (fun j => decide ((N[pre.length + j + 1]?).map (·.2) = some e.2))).map (fun j => pre.length + j + 1)) := by
        unfold collectStep
        rw [if_neg hm, List.length_map]
        have := addLoop_enc (N := N) (i := pre.length) (List.range (N.length - pre.length - 1)) e.1 e.2 skip (by
          intro j hj
          have := List.mem_range.1 hj
          omega)
        rw [filterMap_range_drop] at this
        have hd : N.drop (pre.length + 1) = suf := by rw [hN', ← hlen', List.drop_left]
        rw [hd] at this
        dsimp only
        rw [this]
        rfl
      rw [h1, ok_bind]
      obtain ⟨sk, hsk⟩ := collect_enc N suf (pre ++ [e])
        (final ++ [enc (e.1 + ((suf.filter (fun x => decide (x.2 = e.2))).map (·.1)).sum, e.2)])
        (skip ++ ((List.range (N.length - pre.length - 1)).filter
              (fun j => decide ((N[pre.length + j + 1]?).map (·.2) = some e.2))).map (fun j => pre.length + j + 1)) hN' (by
        intro k hk f hf
        have hkl := (List.getElem?_eq_some_iff.1 hf).1
        rw [hlen'] at hk
        rw [List.mem_append, hskip k (by omega) f hf, List.map_append, List.mem_append, List.map_singleton, List.mem_singleton]
        apply or_congr Iff.rfl
        constructor
        · intro h
          obtain ⟨j, hj, rfl⟩ := List.mem_map.1 h
          have := (List.mem_filter.1 hj).2
          rw [hf] at this
          simpa using this
        · intro h
          refine List.mem_map.2 ⟨k - pre.length - 1, List.mem_filter.2 ⟨List.mem_range.2 (by omega), ?_⟩, by omega⟩
          rw [show pre.length + (k - pre.length - 1) + 1 = k by omega, hf]
          simpa using h)
      rw [hlen'] at hsk
      refine ⟨sk, ?_⟩
      rw [hsk]
      conv_rhs => unfold shortCollect
      rw [if_neg htaken, List.map_cons, List.append_assoc, List.map_append]
      rfl

/-- The total number given for a name. -/
def totalOf (s : String) (l : List (Int × String)) : Int :=
  ((l.filter (fun e => decide (e.2 = s))).map (·.1)).sum

theorem shortCollect_names : ∀ (l : List (Int × String)) (taken : List String),
    ((shortCollect taken l).map (·.2)).Nodup ∧
      ∀ s, s ∈ (shortCollect taken l).map (·.2) ↔ s ∈ l.map (·.2) ∧ s ∉ taken
  | [], taken => by simp [shortCollect]
  | e :: t, taken => by
    unfold shortCollect
    by_cases he : e.2 ∈ taken
    · rw [if_pos he]
      obtain ⟨h1, h2⟩ := shortCollect_names t taken
      refine ⟨h1, fun s => ?_⟩
      rw [h2, List.map_cons, List.mem_cons]
      constructor
      · rintro ⟨a, b⟩; exact ⟨Or.inr a, b⟩
      · rintro ⟨rfl | a, b⟩
        · exact absurd he b
        · exact ⟨a, b⟩
    · rw [if_neg he]
      obtain ⟨h1, h2⟩ := shortCollect_names t (taken ++ [e.2])
      rw [List.map_cons]
      refine ⟨List.nodup_cons.2 ⟨?_, h1⟩, fun s => ?_⟩
      · rw [h2]; simp
      · rw [List.mem_cons, h2, List.map_cons, List.mem_cons]
        simp only [List.mem_append, List.mem_singleton, not_or]
        constructor
        · rintro (rfl | ⟨a, b, c⟩)
          · exact ⟨Or.inl rfl, he⟩
          · exact ⟨Or.inr a, b⟩
        · rintro ⟨rfl | a, b⟩
          · exact Or.inl rfl
          · by_cases hs : s = e.2
            · exact Or.inl hs
            · exact Or.inr ⟨a, b, hs⟩

theorem shortCollect_total : ∀ (l : List (Int × String)) (taken : List String) (s : String), s ∉ taken →
    totalOf s (shortCollect taken l) = totalOf s l
  | [], _, _, _ => rfl
  | e :: t, taken, s, hs => by
    unfold shortCollect
    by_cases he : e.2 ∈ taken
    · rw [if_pos he, shortCollect_total t taken s hs]
      unfold totalOf
      rw [List.filter_cons_of_neg]
      simp only [decide_eq_true_eq]
      rintro rfl
      exact hs he
    · rw [if_neg he]
      by_cases hse : e.2 = s
      · subst hse
        have h0 : (shortCollect (taken ++ [e.2]) t).filter (fun x => decide (x.2 = e.2)) = [] := by
          rw [List.filter_eq_nil_iff]
          intro x hx hx2
          have := ((shortCollect_names t (taken ++ [e.2])).2 x.2).1 (List.mem_map_of_mem hx)
          simp only [decide_eq_true_eq] at hx2
          rw [hx2] at this
          simp at this
        unfold totalOf
        rw [List.filter_cons_of_pos (by simp), List.filter_cons_of_pos (by simp), h0]
        simp
      · unfold totalOf
        rw [List.filter_cons_of_neg (by simpa using hse), List.filter_cons_of_neg (by simpa using hse)]
        have := shortCollect_total t (taken ++ [e.2]) s (by simp [hs, Ne.symm hse])
        exact this

end BucketInput
end KMC

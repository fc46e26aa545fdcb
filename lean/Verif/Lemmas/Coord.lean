import Verif.Model.Coordinate
import Verif.Model.TypeBucket
import Mathlib.Tactic.Ring

namespace KMC
namespace Coord
variable {K : Type _} [Field K]

@[simp] theorem add_x (a b : Coord K) : (a + b).x = a.x + b.x := rfl
@[simp] theorem add_y (a b : Coord K) : (a + b).y = a.y + b.y := rfl
@[simp] theorem add_z (a b : Coord K) : (a + b).z = a.z + b.z := rfl
@[simp] theorem sub_x (a b : Coord K) : (a - b).x = a.x - b.x := rfl
@[simp] theorem sub_y (a b : Coord K) : (a - b).y = a.y - b.y := rfl
@[simp] theorem sub_z (a b : Coord K) : (a - b).z = a.z - b.z := rfl
@[simp] theorem zero_x : (0 : Coord K).x = 0 := rfl
@[simp] theorem zero_y : (0 : Coord K).y = 0 := rfl
@[simp] theorem zero_z : (0 : Coord K).z = 0 := rfl

theorem sub_self' (a : Coord K) : a - a = 0 := by ext <;> simp

theorem add_sub_assoc' (a b c : Coord K) : a + b - c = a + (b - c) := by ext <;> simp <;> ring

end Coord

namespace Bucket

theorem identicalLoop_iff (a b : Bucket) (h : a.length = b.length) : identicalLoop a b = true ↔ a = b := by
  induction a generalizing b with
  | nil => cases b <;> simp_all [identicalLoop]
  | cons x xs ih =>
    cases b with
    | nil => simp at h
    | cons y ys =>
      simp only [List.length_cons, Nat.add_right_cancel_iff] at h
      unfold identicalLoop
      by_cases hxy : x = y
      · simp [hxy, ih ys h]
      · simp [hxy]

theorem identical_iff (a b : Bucket) : identical a b = true ↔ a = b := by
  unfold identical
  by_cases h : a.length = b.length
  · simp [h, identicalLoop_iff a b h]
  · simp only [ne_eq, h, not_false_eq_true, if_true, Bool.false_eq_true, false_iff]
    rintro rfl; exact h rfl

theorem matchLoop_iff (a b : Bucket) :
    matchLoop a b = true ↔ ∀ (i : Nat) (x y : Int), a[i]? = some x → b[i]? = some y → x ≤ y := by
  fun_induction matchLoop a b with
  | case1 a as b bs h =>
    simp only [Bool.false_eq_true, false_iff, not_forall]
    exact ⟨0, a, b, by simp, by simp, by omega⟩
  | case2 a as b bs h ih =>
    rw [ih]
    constructor
    · intro hh i x y hx hy
      cases i with
      | zero => simp at hx hy; omega
      | succ i => exact hh i x y (by simpa using hx) (by simpa using hy)
    · intro hh i x y hx hy
      exact hh (i + 1) x y (by simpa using hx) (by simpa using hy)
  | case3 a b hne =>
    simp only [true_iff]
    intro i x y hx hy
    cases a with
    | nil => simp at hx
    | cons p ps =>
      cases b with
      | nil => simp at hy
      | cons q qs => exact absurd rfl (hne p ps q qs rfl)

theorem geLoop_refl (a : Bucket) : geLoop a a = true := by
  induction a with
  | nil => simp [geLoop]
  | cons x xs ih => unfold geLoop; simp [ih]

theorem geLoop_total (a b : Bucket) : geLoop a b = true ∨ geLoop b a = true := by
  induction a generalizing b with
  | nil => left; simp [geLoop]
  | cons x xs ih =>
    cases b with
    | nil => left; simp [geLoop]
    | cons y ys =>
      unfold geLoop
      rcases lt_trichotomy x y with h | h | h
      · right; simp [h, not_lt.2 h.le]
      · subst h; simpa using ih ys
      · left; simp [h, not_lt.2 h.le]

theorem geLoop_antisymm (a b : Bucket) (hl : a.length = b.length) (h1 : geLoop a b = true)
    (h2 : geLoop b a = true) : a = b := by
  induction a generalizing b with
  | nil => cases b <;> simp_all
  | cons x xs ih =>
    cases b with
    | nil => simp at hl
    | cons y ys =>
      unfold geLoop at h1 h2
      rcases lt_trichotomy x y with h | h | h
      · simp [h] at h1
      · subst h
        simp only [lt_self_iff_false, if_false] at h1 h2
        rw [ih ys (by simpa using hl) (by simpa using h1) (by simpa using h2)]
      · simp [h] at h2

theorem geLoop_trans (a b c : Bucket) (hl : a.length = b.length) (hl2 : b.length = c.length)
    (h1 : geLoop a b = true) (h2 : geLoop b c = true) : geLoop a c = true := by
  induction a generalizing b c with
  | nil => simp [geLoop]
  | cons x xs ih =>
    cases b with
    | nil => simp at hl
    | cons y ys =>
      cases c with
      | nil => simp at hl2
      | cons z zs =>
        unfold geLoop at h1 h2 ⊢
        by_cases hxy : x < y
        · simp [hxy] at h1
        by_cases hyz : y < z
        · simp [hyz] at h2
        simp only [hxy, hyz, if_false] at h1 h2
        by_cases hxz : x < z
        · omega
        simp only [hxz, if_false]
        by_cases hxz2 : x > z
        · simp [hxz2]
        have e1 : x = y := by omega
        have e2 : y = z := by omega
        subst e1 e2
        simp at h1 h2 ⊢
        exact ih ys zs (by simpa using hl) (by simpa using hl2) h1 h2

theorem length_addLoop (a b : Bucket) (h : a.length = b.length) : (addLoop a b).length = a.length := by
  induction a generalizing b with
  | nil => simp [addLoop]
  | cons x xs ih =>
    cases b with
    | nil => simp at h
    | cons y ys => simp [addLoop, ih ys (by simpa using h)]

theorem getElem?_addLoop (a b : Bucket) (i : Nat) (x y : Int) (hx : a[i]? = some x) (hy : b[i]? = some y) :
    (addLoop a b)[i]? = some (x + y) := by
  induction a generalizing b i with
  | nil => simp at hx
  | cons p ps ih =>
    cases b with
    | nil => simp at hy
    | cons q qs =>
      cases i with
      | zero => simp_all [addLoop]
      | succ i => simpa [addLoop] using ih qs i (by simpa using hx) (by simpa using hy)

end Bucket
end KMC

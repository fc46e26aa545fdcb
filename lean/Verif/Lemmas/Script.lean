import Verif.Model.Script
import Verif.Spec.Literal
import Verif.Lemmas.Monad
import Mathlib.Algebra.Order.Floor.Ring
import Mathlib.Data.Nat.Digits.Lemmas
import Mathlib.Tactic.Linarith
import Mathlib.Tactic.Ring
import Mathlib.Tactic.FieldSimp
import Mathlib.Tactic.NormNum
import Mathlib.Tactic.IntervalCases

/-!
# Lemmas on scripts: names and numbers
-/

set_option linter.unusedSectionVars false

namespace KMC.Script

/-! ### Names -/

theorem steps_append (s : Literal.State) (a b : List Char) :
    Literal.steps s (a ++ b) = (Literal.steps s a).bind fun s' => Literal.steps s' b := by
  induction a generalizing s with
  | nil => rfl
  | cons c a ih =>
    rw [List.cons_append, Literal.steps, Literal.steps]
    cases Literal.step s c with
    | none => rfl
    | some s' => exact ih s'

/-- A name that can be written between single quotes. -/
def Clean (t : String) : Prop := ∀ c ∈ t.toList, c ≠ '\'' ∧ c ≠ '\\' ∧ c ≠ '\n'

theorem steps_inside (l : List String) : ∀ (n t : List Char), (∀ c ∈ t, c ≠ '\'' ∧ c ≠ '\\' ∧ c ≠ '\n') →
    Literal.steps (.inside l n) (t ++ ['\'']) = some (.after (l ++ [String.ofList (n ++ t)]))
  | n, [], _ => by simp [Literal.steps, Literal.step]
  | n, c :: t, h => by
    obtain ⟨h1, h2, h3⟩ := h c (by simp)
    rw [List.cons_append, Literal.steps]
    simp only [Literal.step, h1, h2, h3, if_false, or_self]
    rw [steps_inside l (n ++ [c]) t (fun x hx => h x (by simp [hx]))]
    simp

theorem steps_quoted {t : String} (h : Clean t) (l : List String) :
    Literal.steps (.item l) (quoted t) = some (.after (l ++ [t])) := by
  unfold quoted
  rw [List.cons_append, Literal.steps]
  simp only [Literal.step, if_true]
  rw [steps_inside l [] t.toList h]
  simp

theorem steps_spaces (l : List String) : ∀ k : Nat, Literal.steps (.item l) (List.replicate k ' ') = some (.item l)
  | 0 => rfl
  | k + 1 => by
    rw [List.replicate_succ, Literal.steps]
    simp only [Literal.step, Literal.blank]
    exact steps_spaces l k

theorem steps_namesLoop (indent : Nat) : ∀ (ts : List String), ts ≠ [] → (∀ t ∈ ts, Clean t) →
    ∀ (s : Literal.State) (line : List Char) (acc : List String), Literal.steps s line = some (.item acc) →
      Literal.steps s (namesLoop indent line ts) = some (.closed (acc ++ ts))
  | [], h, _, _, _, _, _ => absurd rfl h
  | [t], _, hc, s, line, acc, h => by
    unfold namesLoop
    rw [steps_append, steps_append, h, Option.bind_some, steps_quoted (hc t (by simp)), Option.bind_some]
    rfl
  | t :: u :: ts, _, hc, s, line, acc, h => by
    unfold namesLoop
    have h1 : Literal.steps s (line ++ quoted t ++ [',']) = some (.item (acc ++ [t])) := by
      rw [steps_append, steps_append, h, Option.bind_some, steps_quoted (hc t (by simp)), Option.bind_some]
      rfl
    have hc' : ∀ x ∈ u :: ts, Clean x := fun x hx => hc x (by simp only [List.mem_cons] at hx ⊢; tauto)
    dsimp only
    split
    · rw [List.append_assoc, steps_append, h1, Option.bind_some, List.cons_append, Literal.steps]
      simp only [Literal.step, Literal.blank]
      show Literal.steps (.item (acc ++ [t])) _ = _
      rw [steps_append, steps_spaces, Option.bind_some,
        steps_namesLoop indent (u :: ts) (by simp) hc' (.item (acc ++ [t])) [] (acc ++ [t]) rfl]
      simp
    · rw [steps_namesLoop indent (u :: ts) (by simp) hc' s _ (acc ++ [t]) h1]
      simp

/-! ### Numbers -/

section
variable {K : Type _} [Field K] [LinearOrder K] [IsStrictOrderedRing K] [FloorRing K]

theorem floor_toNat {s : K} (h : 0 ≤ s) : ((⌊s⌋.toNat : Nat) : K) = (⌊s⌋ : K) := by
  have h1 : 0 ≤ ⌊s⌋ := Int.floor_nonneg.2 h
  have h2 : ((⌊s⌋.toNat : Nat) : Int) = ⌊s⌋ := Int.toNat_of_nonneg h1
  calc ((⌊s⌋.toNat : Nat) : K) = (((⌊s⌋.toNat : Nat) : Int) : K) := by push_cast; rfl
    _ = _ := by rw [h2]

theorem roundEven_error {s : K} (h : 0 ≤ s) : |(roundEven s : K) - s| ≤ 1 / 2 := by
  have h1 := Int.floor_le s
  have h2 := Int.lt_floor_add_one s
  rw [← floor_toNat h] at h1 h2
  unfold roundEven
  dsimp only
  split_ifs with a b c <;> rw [abs_le] <;> push_cast <;> constructor <;> linarith

theorem roundEven_nat (n : Nat) : roundEven (n : K) = n := by
  unfold roundEven
  simp

theorem roundEven_bounds {s : K} {a b : Nat} (ha : (a : K) ≤ s) (hb : s < b) : a ≤ roundEven s ∧ roundEven s ≤ b := by
  have h0 : 0 ≤ s := (Nat.cast_nonneg a).trans ha
  have h1 : a ≤ ⌊s⌋.toNat := by
    have : (a : Int) ≤ ⌊s⌋ := Int.le_floor.2 (by exact_mod_cast ha)
    omega
  have h2 : ⌊s⌋.toNat < b := by
    have : ⌊s⌋ < (b : Int) := Int.floor_lt.2 (by exact_mod_cast hb)
    have := Int.floor_nonneg.2 h0
    omega
  unfold roundEven
  dsimp only
  split_ifs <;> omega

theorem ten_zpow_pos (e : Int) : (0 : K) < 10 ^ e := zpow_pos (by norm_num) e

theorem scaled {a : K} (ha : 0 < a) :
    (10 : K) ^ Int.log 10 a ≤ a ∧ ((1000000 : Nat) : K) ≤ a / 10 ^ (Int.log 10 a - 6) ∧
      a / 10 ^ (Int.log 10 a - 6) < ((10000000 : Nat) : K) := by
  have h1 := Int.zpow_log_le_self (b := 10) (by norm_num) ha
  have h2 := Int.lt_zpow_succ_log_self (b := 10) (by norm_num) a
  push_cast at h1 h2
  refine ⟨h1, ?_, ?_⟩
  · rw [le_div_iff₀ (ten_zpow_pos _)]
    calc ((1000000 : Nat) : K) * 10 ^ (Int.log 10 a - 6) = 10 ^ Int.log 10 a := by
          rw [zpow_sub₀ (by norm_num)]
          norm_num
          ring
      _ ≤ a := h1
  · rw [div_lt_iff₀ (ten_zpow_pos _)]
    calc a < 10 ^ (Int.log 10 a + 1) := h2
      _ = ((10000000 : Nat) : K) * 10 ^ (Int.log 10 a - 6) := by
          rw [zpow_sub₀ (by norm_num), zpow_add₀ (by norm_num)]
          norm_num
          ring

theorem sci_digits {a : K} (ha : 0 < a) : 1000000 ≤ (sci a).1 ∧ (sci a).1 < 10000000 := by
  obtain ⟨-, h1, h2⟩ := scaled ha
  have := roundEven_bounds h1 h2
  unfold sci
  rw [if_neg ha.ne']
  dsimp only
  split_ifs with h
  · exact ⟨le_rfl, by norm_num⟩
  · exact ⟨this.1, by omega⟩

theorem sci_lt (a : K) (ha : 0 ≤ a) : (sci a).1 < 10000000 := by
  rcases ha.eq_or_lt with rfl | ha
  · simp [sci]
  · exact (sci_digits ha).2

/-- The number written, before the sign. -/
theorem sci_value {a : K} (ha : 0 < a) : ((sci a).1 : K) * 10 ^ ((sci a).2 - 6) =
    (roundEven (a / 10 ^ (Int.log 10 a - 6)) : K) * 10 ^ (Int.log 10 a - 6) := by
  unfold sci
  rw [if_neg ha.ne']
  dsimp only
  split_ifs with h
  · rw [h, show Int.log 10 a + 1 - 6 = (Int.log 10 a - 6) + 1 by ring, zpow_add₀ (by norm_num)]
    norm_num
    ring
  · rfl

theorem sci_error {a : K} (ha : 0 < a) : |((sci a).1 : K) * 10 ^ ((sci a).2 - 6) - a| ≤ a / 2000000 := by
  obtain ⟨h0, h1, h2⟩ := scaled ha
  rw [sci_value ha]
  have hp := ten_zpow_pos (K := K) (Int.log 10 a - 6)
  have h3 := roundEven_error ((Nat.cast_nonneg _).trans h1)
  have he : (roundEven (a / 10 ^ (Int.log 10 a - 6)) : K) * 10 ^ (Int.log 10 a - 6) - a =
      ((roundEven (a / 10 ^ (Int.log 10 a - 6)) : K) - a / 10 ^ (Int.log 10 a - 6)) * 10 ^ (Int.log 10 a - 6) := by
    rw [sub_mul, div_mul_cancel₀ _ hp.ne']
  rw [he, abs_mul, abs_of_pos hp]
  rw [le_div_iff₀ hp] at h1
  push_cast at h1
  calc _ ≤ 1 / 2 * (10 : K) ^ (Int.log 10 a - 6) := mul_le_mul_of_nonneg_right h3 hp.le
    _ ≤ a / 2000000 := by linarith

/-- A number with at most seven digits is written exactly. -/
theorem sci_exact {n : Nat} (hn : n < 10000000) (h0 : n ≠ 0) (k : Int) :
    ((sci ((n : K) * 10 ^ k)).1 : K) * 10 ^ ((sci ((n : K) * 10 ^ k)).2 - 6) = (n : K) * 10 ^ k := by
  have hnp : (0 : K) < n := by exact_mod_cast Nat.pos_of_ne_zero h0
  have ha : (0 : K) < (n : K) * 10 ^ k := mul_pos hnp (ten_zpow_pos k)
  rw [sci_value ha]
  obtain ⟨h1, -, -⟩ := scaled ha
  have h2 : (n : K) * 10 ^ k < 10 ^ (k + 7) := by
    rw [zpow_add₀ (by norm_num), mul_comm]
    apply mul_lt_mul_of_pos_left _ (ten_zpow_pos k)
    norm_num
    exact hn
  have he : Int.log 10 ((n : K) * 10 ^ k) < k + 7 := (zpow_lt_zpow_iff_right₀ (by norm_num)).1 (h1.trans_lt h2)
  generalize Int.log 10 ((n : K) * 10 ^ k) = e at *
  obtain ⟨d, hd⟩ := Int.eq_ofNat_of_zero_le (by omega : 0 ≤ k + 6 - e)
  have hs : (n : K) * 10 ^ k / 10 ^ (e - 6) = ((n * 10 ^ d : Nat) : K) := by
    rw [mul_div_assoc, ← zpow_sub₀ (by norm_num), show k - (e - 6) = (d : Int) by omega, zpow_natCast]
    push_cast
    rfl
  rw [hs, roundEven_nat, ← hs, div_mul_cancel₀ _ (ten_zpow_pos _).ne']

theorem saved_zero : saved (0 : K) = 0 := by simp [saved, sci]

theorem saved_neg (x : K) : saved (-x) = -saved x := by
  rcases lt_trichotomy x 0 with h | h | h
  · simp only [saved, abs_neg, h, if_true, neg_neg]
    rw [if_neg (by linarith)]
  · simp [h, saved_zero]
  · simp only [saved, abs_neg]
    rw [if_pos (by linarith), if_neg (by linarith)]

/-- The form of the numbers that are written exactly. -/
def Short (x : K) : Prop := ∃ (n : Nat) (k : Int), n < 10000000 ∧ |x| = (n : K) * 10 ^ k

theorem saved_exact {x : K} (h : Short x) : saved x = x := by
  obtain ⟨n, k, hn, hx⟩ := h
  rcases eq_or_ne n 0 with rfl | h0
  · rw [Nat.cast_zero, zero_mul, abs_eq_zero] at hx
    rw [hx, saved_zero]
  · have := sci_exact (K := K) hn h0 k
    unfold saved
    dsimp only
    rw [hx, this, ← hx]
    split_ifs with h
    · rw [abs_of_neg h, neg_neg]
    · exact abs_of_nonneg (not_lt.1 h)

theorem short_saved (x : K) : Short (saved x) := by
  refine ⟨(sci |x|).1, (sci |x|).2 - 6, sci_lt _ (abs_nonneg x), ?_⟩
  have h0 : (0 : K) ≤ ((sci |x|).1 : K) * 10 ^ ((sci |x|).2 - 6) := mul_nonneg (Nat.cast_nonneg _) (ten_zpow_pos _).le
  unfold saved
  dsimp only
  split_ifs
  · rw [abs_neg, abs_of_nonneg h0]
  · rw [abs_of_nonneg h0]

theorem saved_error (x : K) : |saved x - x| ≤ |x| / 2000000 := by
  rcases eq_or_ne x 0 with rfl | hx
  · simp [saved_zero]
  · have h := sci_error (abs_pos.2 hx)
    unfold saved
    dsimp only
    split_ifs with hn
    · rw [abs_of_neg hn] at h ⊢
      rw [← abs_neg]
      convert h using 2
      ring
    · rw [abs_of_nonneg (not_lt.1 hn)] at h ⊢
      exact h

/-! ### The text of numbers -/

theorem digitChar_value {d : Nat} (h : d < 10) : (Nat.digitChar d).toNat - 48 = d := by
  interval_cases d <;> decide

theorem digitChar_isDigit {d : Nat} (h : d < 10) : Literal.isDigit (Nat.digitChar d) = true := by
  interval_cases d <;> decide

theorem natOf_append (a b : List Char) : Literal.natOf (a ++ b) = b.foldl (fun a c => 10 * a + (c.toNat - 48)) (Literal.natOf a) := by
  simp [Literal.natOf, List.foldl_append]

theorem natOf_zeros (k : Nat) : Literal.natOf (List.replicate k '0') = 0 := by
  induction k with
  | zero => rfl
  | succ k ih =>
    rw [List.replicate_succ', natOf_append, ih]
    decide

theorem natOf_digits : ∀ (l : List Nat), (∀ d ∈ l, d < 10) → Literal.natOf (l.reverse.map Nat.digitChar) = Nat.ofDigits 10 l
  | [], _ => rfl
  | d :: l, h => by
    rw [List.reverse_cons, List.map_append, natOf_append, natOf_digits l (fun x hx => h x (by simp [hx])), Nat.ofDigits_cons]
    simp only [List.map_cons, List.map_nil, List.foldl_cons, List.foldl_nil]
    rw [digitChar_value (h d (by simp))]
    ring

theorem digits_lt (n : Nat) : ∀ d ∈ Nat.digits 10 n, d < 10 := fun _ hd => Nat.digits_lt_base (by norm_num) hd

theorem natOf_digitsText (w n : Nat) : Literal.natOf (digitsText w n) = n := by
  unfold digitsText
  dsimp only
  rw [natOf_append, natOf_zeros]
  have := natOf_digits (Nat.digits 10 n) (digits_lt n)
  rw [Nat.ofDigits_digits] at this
  exact this

theorem digitsText_isDigit (w n : Nat) : ∀ c ∈ digitsText w n, Literal.isDigit c = true := by
  intro c hc
  unfold digitsText at hc
  rcases List.mem_append.1 hc with h | h
  · rw [List.eq_of_mem_replicate h]; decide
  · obtain ⟨d, hd, rfl⟩ := List.mem_map.1 h
    exact digitChar_isDigit (digits_lt n d (List.mem_reverse.1 hd))

theorem length_digitsText {w n : Nat} (h : n < 10 ^ w) : (digitsText w n).length = w := by
  have := (Nat.digits_length_le_iff (b := 10) (k := w) (by norm_num) n).2 h
  unfold digitsText
  simp only [List.length_append, List.length_replicate, List.length_map, List.length_reverse]
  omega

theorem digitsText_ne_nil {w n : Nat} (h : 0 < w) : digitsText w n ≠ [] := by
  unfold digitsText
  dsimp only
  intro h'
  rw [List.append_eq_nil_iff] at h'
  have h1 := congrArg List.length h'.1
  rw [h'.2] at h1
  simp at h1
  omega

theorem takeWhile_digits {l r : List Char} {c : Char} (h : ∀ x ∈ l, Literal.isDigit x = true) (hc : Literal.isDigit c = false) :
    (l ++ c :: r).takeWhile Literal.isDigit = l ∧ (l ++ c :: r).dropWhile Literal.isDigit = c :: r := by
  induction l with
  | nil => simp [hc]
  | cons x l ih =>
    have := ih (fun y hy => h y (by simp [hy]))
    simp [h x (by simp), this]

theorem unsigned_sciText {m : Nat} (e : Int) (hm : m < 10000000) :
    Literal.unsigned (K := K) (sciText m e) = some ((m : K) * 10 ^ (e - 6)) := by
  have hlen : (digitsText 7 m).length = 7 := length_digitsText (by norm_num; exact hm)
  have hd := digitsText_isDigit 7 m
  have h1 := takeWhile_digits (l := (digitsText 7 m).take 1) (c := '.')
    (r := (digitsText 7 m).drop 1 ++ 'e' :: (if e < 0 then '-' else '+') :: digitsText 2 e.natAbs)
    (fun x hx => hd x (List.mem_of_mem_take hx)) (by decide)
  have h2 := takeWhile_digits (l := (digitsText 7 m).drop 1) (c := 'e')
    (r := (if e < 0 then '-' else '+') :: digitsText 2 e.natAbs)
    (fun x hx => hd x (List.mem_of_mem_drop hx)) (by decide)
  have ht : sciText m e = (digitsText 7 m).take 1 ++ '.' :: ((digitsText 7 m).drop 1 ++
      'e' :: (if e < 0 then '-' else '+') :: digitsText 2 e.natAbs) := by
    simp [sciText]
  have hne : (digitsText 7 m).take 1 ≠ [] := by
    intro h
    have := congrArg List.length h
    simp [hlen] at this
  have hall : (digitsText 2 e.natAbs).all Literal.isDigit = true := List.all_eq_true.2 (digitsText_isDigit _ _)
  unfold Literal.unsigned
  rw [ht, h1.1, h1.2]
  simp only [h2.1, h2.2]
  by_cases he : e < 0
  · simp only [he, if_true]
    rw [if_pos ⟨hne, digitsText_ne_nil (by norm_num), hall⟩, List.take_append_drop, natOf_digitsText, natOf_digitsText,
      List.length_drop, hlen]
    congr 3
    omega
  · simp only [he, if_false]
    rw [if_pos ⟨hne, digitsText_ne_nil (by norm_num), hall⟩, List.take_append_drop, natOf_digitsText, natOf_digitsText,
      List.length_drop, hlen]
    congr 3
    omega

theorem sciText_head (m : Nat) (e : Int) : ∃ c r, sciText m e = c :: r ∧ Literal.isDigit c = true := by
  have hd := digitsText_isDigit 7 m
  have hne := digitsText_ne_nil (w := 7) (n := m) (by norm_num)
  cases h : digitsText 7 m with
  | nil => exact absurd h hne
  | cons c r =>
    refine ⟨c, ('.' :: r) ++ 'e' :: (if e < 0 then '-' else '+') :: digitsText 2 e.natAbs, ?_, hd c (by simp [h])⟩
    unfold sciText
    rw [h]
    simp

theorem dropWhile_spaces (k : Nat) {c : Char} (r : List Char) (hc : c ≠ ' ') :
    (List.replicate k ' ' ++ c :: r).dropWhile (fun c => decide (c = ' ')) = c :: r := by
  induction k with
  | zero => simp [hc]
  | succ k ih => simpa [List.replicate_succ] using ih

theorem number_numberText (x : K) : Literal.number (numberText x) = some (saved x) := by
  have hm := sci_lt |x| (abs_nonneg x)
  have hu := unsigned_sciText (K := K) (sci |x|).2 hm
  unfold numberText Literal.number
  dsimp only
  by_cases h : x < 0
  · simp only [h, if_true, List.singleton_append]
    rw [dropWhile_spaces _ _ (by decide)]
    simp only [hu, Option.map_some]
    simp only [saved, h, if_true]
  · simp only [h, if_false, List.nil_append]
    obtain ⟨c, r, hs, hc⟩ := sciText_head (sci |x|).1 (sci |x|).2
    have hc1 : c ≠ ' ' := by rintro rfl; exact absurd hc (by decide)
    have hc2 : c ≠ '-' := by rintro rfl; exact absurd hc (by decide)
    rw [hs, dropWhile_spaces _ _ hc1]
    rw [hs] at hu
    split
    · next heq => cases heq; exact absurd rfl hc2
    · rw [hu]
      simp only [saved, h, if_false]

end
end KMC.Script

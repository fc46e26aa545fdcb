import Verif.Lemmas.Md5
import Mathlib.Data.Fintype.Pigeonhole
import Mathlib.Data.Fintype.BigOperators

/-!
# C60: the keys of stored rates are MD5 of the process and its surroundings
-/

namespace KMC.Md5
open Rfc1321

/-- **C60** The code computes MD5 as defined in RFC 1321, for messages of any length and whatever was in the buffer before. It
does not read or write outside its memory. -/
theorem C60_md5 {buffer : List Byte} (h : buffer.length = 64) (message : List Byte) :
    digest buffer message = .ok (md5 message) := by
  obtain ⟨ctx, h1, h2⟩ := update_holds (data := message) (holds_init h)
  unfold digest
  rw [h1, ok_bind, final_holds h2, List.nil_append]

/-- Non-vacuity: a test of the RFC, the digest of `message digest`. -/
example : digest (List.replicate 64 0) ("message digest".toList.map fun c => BitVec.ofNat 8 c.toNat) =
    .ok [0xf9#8, 0x6b#8, 0x69#8, 0x7d#8, 0x7c#8, 0xb7#8, 0x93#8, 0x8d#8, 0x52#8, 0x5a#8, 0x2f#8, 0x31#8, 0xaa#8, 0xf1#8,
      0x61#8, 0xd0#8] := by
  rw [C60_md5 (by decide)]
  decide +kernel

/-- Non-vacuity: a test of the RFC with two blocks. -/
example : digest (List.replicate 64 0) ("12345678901234567890123456789012345678901234567890123456789012345678901234567890".toList.map
    fun c => BitVec.ofNat 8 c.toNat) =
    .ok [0x57#8, 0xed#8, 0xf4#8, 0xa2#8, 0x2b#8, 0xe3#8, 0xc9#8, 0x55#8, 0xac#8, 0x49#8, 0xda#8, 0x2e#8, 0x21#8, 0x07#8,
      0xb6#8, 0x7a#8] := by
  rw [C60_md5 (by decide)]
  decide +kernel

/-- **C60** A message that is given in pieces has the digest of the whole. -/
theorem C60_pieces {buffer : List Byte} (h : buffer.length = 64) (pieces : List (List Byte)) :
    (loopM update pieces (init buffer) >>= final) = .ok (md5 pieces.flatten) := by
  have key : ∀ (ps : List (List Byte)) (ctx : Ctx) (msg : List Byte), Holds ctx msg →
      ∃ ctx', loopM update ps ctx = .ok ctx' ∧ Holds ctx' (msg ++ ps.flatten) := by
    intro ps
    induction ps with
    | nil => exact fun ctx msg h => ⟨ctx, rfl, by rw [List.flatten_nil, List.append_nil]; exact h⟩
    | cons p ps ih =>
      intro ctx msg h
      obtain ⟨ctx1, h1, h2⟩ := update_holds (data := p) h
      obtain ⟨ctx2, h3, h4⟩ := ih ctx1 _ h2
      refine ⟨ctx2, ?_, by rw [List.flatten_cons, ← List.append_assoc]; exact h4⟩
      rw [loopM_cons, h1, ok_bind, h3]
  obtain ⟨ctx, h1, h2⟩ := key pieces _ _ (holds_init h)
  rw [h1, ok_bind, final_holds h2, List.nil_append]

theorem md5_length (msg : List Byte) : (md5 msg).length = 16 := rfl

/-- The two halves of a digest, each as a number with the least significant byte first. -/
def half (digest : List Byte) (i : Nat) : BitVec 64 := word digest (2 * i + 1) ++ word digest (2 * i)

/-- **C60** The key of a stored rate: the two halves of the MD5 digest of the integers, combined by exclusive or. -/
theorem C60_key {buffer : List Byte} (h : buffer.length = 64) (message : List Int) :
    hash64 buffer message =
      .ok (half (md5 (message.flatMap intBytes)) 0 ^^^ half (md5 (message.flatMap intBytes)) 1) := by
  unfold hash64 md5Core
  rw [C60_md5 h, ok_bind]
  have e (i : Nat) (hi : i < 2) : word64 (md5 (message.flatMap intBytes)) i = .ok (half (md5 (message.flatMap intBytes)) i) := by
    unfold word64
    rw [setWord_ok (by rw [md5_length]; omega), ok_bind, setWord_ok (by rw [md5_length]; omega), ok_bind]
    rfl
  rw [e 0 (by omega), ok_bind, e 1 (by omega), ok_bind]
  rfl

theorem wordBytes_inj {v w : Word} (h : wordBytes v = wordBytes w) : v = w := by
  have key (u : Word) : ((u >>> 24).setWidth 8 ++ (u >>> 16).setWidth 8 ++ (u >>> 8).setWidth 8 ++ u.setWidth 8 : BitVec 32) = u := by
    apply BitVec.eq_of_getLsbD_eq
    intro i hi
    simp only [BitVec.getLsbD_append, BitVec.getLsbD_setWidth, BitVec.getLsbD_ushiftRight]
    by_cases h1 : i < 8
    · simp [h1]
    · by_cases h2 : i < 16
      · simp [h1, show i - 8 < 8 by omega, show 8 + (i - 8) = i by omega]
      · by_cases h3 : i < 24
        · simp [h1, show ¬ (i - 8 < 8) by omega, show i - 8 - 8 < 8 by omega, show 16 + (i - 8 - 8) = i by omega]
        · simp [h1, show ¬ (i - 8 < 8) by omega, show ¬ (i - 8 - 8 < 8) by omega, show 24 + (i - 8 - 8 - 8) = i by omega,
            show i - 8 - 8 - 8 < 8 by omega]
  unfold wordBytes at h
  injection h with h0 h
  injection h with h1 h
  injection h with h2 h
  injection h with h3 h
  rw [← key v, ← key w, h0, h1, h2, h3]

/-- **C60** The message says what is hashed: different lists of integers give different messages. -/
theorem C60_message {l l' : List Int} (hl : ∀ i ∈ l, -2 ^ 31 ≤ i ∧ i < 2 ^ 31) (hl' : ∀ i ∈ l', -2 ^ 31 ≤ i ∧ i < 2 ^ 31)
    (h : l.flatMap intBytes = l'.flatMap intBytes) : l = l' := by
  induction l generalizing l' with
  | nil =>
    cases l' with
    | nil => rfl
    | cons i l' => cases h
  | cons i l ih =>
    cases l' with
    | nil => cases h
    | cons i' l' =>
      rw [List.flatMap_cons, List.flatMap_cons] at h
      obtain ⟨h1, h2⟩ := List.append_inj h rfl
      rw [ih (fun x hx => hl x (List.mem_cons_of_mem _ hx)) (fun x hx => hl' x (List.mem_cons_of_mem _ hx)) h2]
      have h3 := congrArg BitVec.toInt (wordBytes_inj h1)
      have b1 := hl i List.mem_cons_self
      have b2 := hl' i' List.mem_cons_self
      rw [BitVec.toInt_ofInt, BitVec.toInt_ofInt, Int.bmod_eq_of_le (by omega) (by omega), Int.bmod_eq_of_le (by omega) (by omega)] at h3
      rw [h3]

/-- The integers that are hashed for a process whose surroundings are sites with one particle each, of the first or the second
type. -/
def twoTypes (number : Int) (sites : List Bool) : List Int :=
  number :: sites.flatMap fun b => if b then [0, 1, 0] else [0, 0, 1]

theorem twoTypes_inj {number : Int} : ∀ {l l' : List Bool}, twoTypes number l = twoTypes number l' → l = l' := by
  intro l l' h
  injection h with _ h
  induction l generalizing l' with
  | nil =>
    cases l' with
    | nil => rfl
    | cons b l' => cases b <;> cases h
  | cons b l ih =>
    cases l' with
    | nil => cases b <;> cases h
    | cons b' l' =>
      rw [List.flatMap_cons, List.flatMap_cons] at h
      obtain ⟨h1, h2⟩ := List.append_inj h (by cases b <;> cases b' <;> rfl)
      rw [ih h2]
      cases b <;> cases b'
      · rfl
      · cases h1
      · cases h1
      · rfl

/-- **C60** Negation: the key does not identify the surroundings. With 65 sites within the cutoff, two of the ways to occupy
them have the same key, whatever the 64 bit hash function. -/
theorem C60_collision (hash : List Int → BitVec 64) (number : Int) : ∃ l l' : List Bool, l.length = 65 ∧ l'.length = 65 ∧
    l ≠ l' ∧ hash (twoTypes number l) = hash (twoTypes number l') := by
  obtain ⟨f, g, hne, he⟩ := Fintype.exists_ne_map_eq_of_card_lt
    (fun f : Fin 65 → Bool => (hash (twoTypes number (List.ofFn f))).toFin) (by
      rw [Fintype.card_fin, Fintype.card_fun, Fintype.card_fin, Fintype.card_bool]
      exact Nat.pow_lt_pow_right (by omega) (by omega))
  exact ⟨List.ofFn f, List.ofFn g, List.length_ofFn, List.length_ofFn, fun h => hne (List.ofFn_injective h),
    BitVec.eq_of_toFin_eq he⟩

/-- **C60** Negation: so there are two messages with the same key in the code. -/
theorem C60_same_key {buffer : List Byte} (h : buffer.length = 64) (number : Int) : ∃ l l' : List Bool, l.length = 65 ∧
    l'.length = 65 ∧ twoTypes number l ≠ twoTypes number l' ∧
    hash64 buffer (twoTypes number l) = hash64 buffer (twoTypes number l') := by
  obtain ⟨l, l', h1, h2, h3, h4⟩ := C60_collision (fun m => half (md5 (m.flatMap intBytes)) 0 ^^^ half (md5 (m.flatMap intBytes)) 1)
    number
  refine ⟨l, l', h1, h2, fun he => h3 (twoTypes_inj he), ?_⟩
  rw [C60_key h, C60_key h, h4]

/-- **C60** Negation: the text of a digest does not identify it, since the halves are printed without leading zeros. -/
theorem C60_text : ∃ r r' : BitVec 64 × BitVec 64, r ≠ r' ∧ digestText r = digestText r' :=
  ⟨(0x1#64, 0x12#64), (0x11#64, 0x2#64), by decide, by decide +kernel⟩

end KMC.Md5

import Verif.Model.Mpi
import Verif.Lemmas.Monad

/-! # The chunks tile the list, splitting and joining is the identity -/

namespace KMC
namespace Mpi

/-- Consecutive chunks from `s` to `e`. -/
inductive Tiles : Nat → List (Nat × Nat) → Nat → Prop
  | nil (s : Nat) : Tiles s [] s
  | cons {s t e : Nat} {cs : List (Nat × Nat)} : Tiles (s + t) cs e → Tiles s ((s, t) :: cs) e

theorem Tiles.le {s e : Nat} {cs : List (Nat × Nat)} (h : Tiles s cs e) : s ≤ e := by
  induction h with
  | nil => exact le_rfl
  | cons _ ih => omega

theorem chunksLoop_tiles (take rest : Nat) (k i sum : Nat) :
    Tiles sum (chunksLoop take rest k i sum)
      (sum + k * take + (min rest (i + k) - min rest i)) := by
  induction k generalizing i sum with
  | zero => simpa [chunksLoop] using Tiles.nil sum
  | succ k ih =>
    have h := ih (i + 1) (sum + if i < rest then take + 1 else take)
    refine Tiles.cons ?_
    convert h using 1
    by_cases hi : i < rest
    · rw [if_pos hi]
      have : min rest i = i := by omega
      have : min rest (i + 1) = i + 1 := by omega
      have : i + 1 ≤ min rest (i + 1 + k) := by omega
      have : min rest (i + (k + 1)) = min rest (i + 1 + k) := by congr 1; omega
      have : (k + 1) * take = k * take + take := Nat.succ_mul k take
      omega
    · rw [if_neg hi]
      have : min rest i = rest := by omega
      have : min rest (i + 1) = rest := by omega
      have : min rest (i + 1 + k) = rest := by omega
      have : min rest (i + (k + 1)) = rest := by omega
      have : (k + 1) * take = k * take + take := Nat.succ_mul k take
      omega

theorem determineChunks_tiles {size : Nat} (hs : 0 < size) (n : Nat) :
    Tiles 0 (determineChunks size n) n := by
  have h := chunksLoop_tiles (n / size) (n % size) size 0 0
  have h1 : n % size < size := Nat.mod_lt n hs
  have h2 : size * (n / size) + n % size = n := Nat.div_add_mod n size
  unfold determineChunks
  convert h using 1
  simp
  omega

theorem length_chunksLoop (take rest k i sum : Nat) :
    (chunksLoop take rest k i sum).length = k := by
  induction k generalizing i sum with
  | zero => rfl
  | succ k ih => simp [chunksLoop, ih]

theorem length_determineChunks (size n : Nat) : (determineChunks size n).length = size :=
  length_chunksLoop _ _ _ _ _

/-- The part of the list a chunk stands for. -/
def chunkOf {α : Type _} (xs : List α) (c : Nat × Nat) : List α := (xs.drop c.1).take c.2

theorem Tiles.mem_le {s e : Nat} {cs : List (Nat × Nat)} (h : Tiles s cs e) {c : Nat × Nat}
    (hc : c ∈ cs) : c.1 + c.2 ≤ e := by
  induction h with
  | nil => simp at hc
  | cons h ih =>
    rcases List.mem_cons.1 hc with rfl | hc
    · exact h.le
    · exact ih hc

theorem Tiles.flatten {α : Type _} {xs : List α} {s e : Nat} {cs : List (Nat × Nat)}
    (h : Tiles s cs e) (he : e = xs.length) : (cs.map (chunkOf xs)).flatten = xs.drop s := by
  induction h with
  | nil s => subst he; simp
  | @cons s t e cs h ih =>
    rw [List.map_cons, List.flatten_cons, ih he]
    unfold chunkOf
    rw [← List.drop_drop, List.take_append_drop]

theorem readChunk {α : Type _} (xs : List α) (c : Nat × Nat) (h : c.1 + c.2 ≤ xs.length) :
    mapMM (fun i => rd xs (c.1 + i)) (List.range c.2) = .ok (chunkOf xs c) := by
  have : mapMM (fun i => rd xs (c.1 + i)) (List.range c.2)
      = mapMM (fun i => rd (chunkOf xs c) i >>= fun a => .ok a) (List.range c.2) := by
    apply mapMM_congr
    intro i hi
    have hi : i < c.2 := List.mem_range.1 hi
    have h1 : c.1 + i < xs.length := by omega
    have h2 : (chunkOf xs c)[i]? = some xs[c.1 + i] := by
      unfold chunkOf
      rw [List.getElem?_take_of_lt hi, List.getElem?_drop, List.getElem?_eq_getElem h1]
    rw [rd_of_lt h1, rd_of_getElem? h2]; rfl
  rw [this]
  have hlen : c.2 = (chunkOf xs c).length := by simp [chunkOf]; omega
  conv_lhs => rw [hlen]
  rw [mapMM_rd_range, mapMM_eq_map (f := fun a => Except.ok a) (g := fun a => a) (fun x _ => rfl)]
  simp

theorem split_all {α β : Type _} {size : Nat} (hs : 0 < size) (xs : List α) (g : List α → M β) :
    mapMM (fun r => split size r xs >>= g) (List.range size)
      = mapMM (fun c => g (chunkOf xs c)) (determineChunks size xs.length) := by
  have h1 := mapMM_rd_range (fun c => mapMM (fun i => rd xs (c.1 + i)) (List.range c.2) >>= g)
    (determineChunks size xs.length)
  rw [length_determineChunks] at h1
  have : (fun r => split size r xs >>= g) = fun r => rd (determineChunks size xs.length) r >>=
      fun c => mapMM (fun i => rd xs (c.1 + i)) (List.range c.2) >>= g := by
    funext r
    unfold split
    cases rd (determineChunks size xs.length) r <;> rfl
  rw [this, h1]
  apply mapMM_congr
  intro c hc
  rw [readChunk xs c ((determineChunks_tiles hs xs.length).mem_le hc)]; rfl

theorem contribution_loop {β : Type _} [Zero β] (n s k : Nat) (loc : List β) (hk : k ≤ loc.length)
    (hn : s + k ≤ n) :
    loopM (fun (d : List β) i => (do
      let v ← rd loc i
      wr d (s + i) v : M (List β))) (List.range k) (List.replicate n 0)
      = .ok (List.replicate s 0 ++ loc.take k ++ List.replicate (n - s - k) 0) := by
  induction k with
  | zero =>
    simp only [List.range_zero, loopM_nil, List.take_zero, List.append_nil]
    congr 1
    rw [← List.replicate_add]; congr 1; omega
  | succ k ih =>
    rw [List.range_succ, loopM_append, ih (by omega) (by omega), ok_bind, loopM_cons,
      rd_of_lt (by omega), ok_bind, wr_of_lt (by simp; omega), ok_bind, loopM_nil]
    congr 1
    rw [List.set_append_right _ _ (by simp)]
    have : n - s - k = (n - s - (k + 1)) + 1 := by omega
    rw [this, List.replicate_succ]
    have : s + k - (List.replicate s (0 : β) ++ loc.take k).length = 0 := by simp; omega
    rw [this, List.set_cons_zero, List.take_succ_eq_append_getElem (by omega)]
    simp only [List.append_assoc, List.cons_append, List.nil_append]

theorem zipWith_zeros_left {β : Type _} [AddZeroClass β] (n : Nat) (l : List β) (h : l.length = n) :
    List.zipWith (· + ·) (List.replicate n 0) l = l := by
  subst h
  induction l with
  | nil => rfl
  | cons a l ih => simp [List.replicate_succ, ih]

theorem zipWith_zeros_right {β : Type _} [AddZeroClass β] (n : Nat) (l : List β) (h : l.length = n) :
    List.zipWith (· + ·) l (List.replicate n 0) = l := by
  subst h
  induction l with
  | nil => rfl
  | cons a l ih => simp [List.replicate_succ, ih]

theorem join_loop {β : Type _} [AddZeroClass β] (n : Nat) {s : Nat} {cs : List (Nat × Nat)}
    (h : Tiles s cs n) (locals : List (List β)) (hl : locals.map List.length = cs.map Prod.snd)
    (ys : List β) (hy : ys.length = s) :
    (List.zipWith (fun (c : Nat × Nat) (l : List β) =>
        List.replicate c.1 0 ++ l ++ List.replicate (n - c.1 - c.2) 0) cs locals).foldl
      (fun a b => List.zipWith (· + ·) a b) (ys ++ List.replicate (n - s) 0)
      = ys ++ locals.flatten := by
  induction h generalizing locals ys with
  | nil s =>
    have : locals = [] := by simpa using hl
    subst this; simp
  | @cons s t e cs h ih =>
    cases locals with
    | nil => simp at hl
    | cons l ls =>
      simp only [List.map_cons, List.cons.injEq] at hl
      have hle := h.le
      rw [List.zipWith_cons_cons, List.foldl_cons]
      have hz : List.zipWith (· + ·) (ys ++ List.replicate (e - s) 0)
          (List.replicate s 0 ++ l ++ List.replicate (e - s - t) 0)
          = (ys ++ l) ++ List.replicate (e - (s + t)) 0 := by
        rw [List.append_assoc, List.zipWith_append (by simp [hy]),
          zipWith_zeros_right _ _ hy, zipWith_zeros_left _ _ (by simp; omega)]
        rw [List.append_assoc, Nat.sub_sub]
      rw [hz, ih ls hl.2 (ys ++ l) (by simp; omega)]
      simp

theorem foldl_length {β : Type _} (ls : List (List β)) (s : Nat) :
    ls.foldl (fun s l => s + l.length) s = s + (ls.map List.length).sum := by
  induction ls generalizing s with
  | nil => simp
  | cons l ls ih => rw [List.foldl_cons, ih]; simp; omega

theorem Tiles.sum {s e : Nat} {cs : List (Nat × Nat)} (h : Tiles s cs e) :
    s + (cs.map Prod.snd).sum = e := by
  induction h with
  | nil => simp
  | cons h ih => simp; omega

theorem mapMM_zipIdx_contribution {β : Type _} [Zero β] (size n : Nat) (cs : List (Nat × Nat))
    (locals : List (List β)) (k : Nat)
    (hcs : ∀ i, (determineChunks size n)[k + i]? = cs[i]?)
    (hb : ∀ c ∈ cs, c.1 + c.2 ≤ n)
    (hl : locals.map List.length = cs.map Prod.snd) :
    mapMM (fun (p : List β × Nat) => contribution size n p.2 p.1) (locals.zipIdx k)
      = .ok (List.zipWith (fun (c : Nat × Nat) (l : List β) =>
        List.replicate c.1 0 ++ l ++ List.replicate (n - c.1 - c.2) 0) cs locals) := by
  induction locals generalizing cs k with
  | nil => simp
  | cons l ls ih =>
    cases cs with
    | nil => simp at hl
    | cons c cs =>
      simp only [List.map_cons, List.cons.injEq] at hl
      have h0 := hcs 0
      simp only [Nat.add_zero, List.getElem?_cons_zero] at h0
      have hc := hb c (by simp)
      rw [List.zipIdx_cons, mapMM_cons]
      have : contribution size n k l
          = .ok (List.replicate c.1 0 ++ l ++ List.replicate (n - c.1 - c.2) 0) := by
        unfold contribution
        rw [rd_of_getElem? h0, ok_bind, contribution_loop n c.1 c.2 l (by omega) hc,
          List.take_of_length_le (by omega)]
      rw [this, ok_bind, ih cs (k + 1) (fun i => by
        have := hcs (i + 1)
        simp only [List.getElem?_cons_succ] at this
        rw [← this]; congr 1; omega) (fun c' h' => hb c' (List.mem_cons_of_mem _ h')) hl.2]
      simp

theorem join_eq {β : Type _} [AddZeroClass β] (n : Nat) (locals : List (List β)) (hs : 0 < locals.length)
    (hl : locals.map List.length = (determineChunks locals.length n).map Prod.snd) :
    join locals = .ok locals.flatten := by
  have ht := determineChunks_tiles hs n
  have hn : locals.foldl (fun s l => s + l.length) 0 = n := by
    rw [foldl_length, hl]; simpa using ht.sum
  unfold join
  simp only [hn]
  rw [mapMM_zipIdx_contribution locals.length n (determineChunks locals.length n) locals 0
    (fun i => by simp) (fun c hc => ht.mem_le hc) hl, ok_bind]
  have := join_loop n ht locals hl [] rfl
  simp only [List.nil_append, Nat.sub_zero] at this
  rw [this]; rfl

theorem parMap_eq {α β : Type _} [AddZeroClass β] {size : Nat} (hs : 0 < size) (f : α → M β)
    (xs : List α) : parMap size f xs = mapMM f xs := by
  have ht := determineChunks_tiles hs xs.length
  have hflat : ((determineChunks size xs.length).map (chunkOf xs)).flatten = xs := by
    rw [ht.flatten rfl]; simp
  unfold parMap
  rw [split_all hs xs (mapMM f)]
  conv_rhs => rw [← hflat, mapMM_flatten, mapMM_map]
  cases h : mapMM (fun c => mapMM f (chunkOf xs c)) (determineChunks size xs.length) with
  | error e => rfl
  | ok locals =>
    rw [ok_bind, ok_bind]
    have hlen : locals.length = size := by rw [mapMM_length h, length_determineChunks]
    apply join_eq xs.length
    · omega
    · rw [hlen]
      have h2 := mapMM_ok_iff.1 h
      have hb : ∀ c ∈ determineChunks size xs.length, c.1 + c.2 ≤ xs.length := fun c hc => ht.mem_le hc
      generalize determineChunks size xs.length = cs at h2 hb
      clear h hlen ht hflat
      induction h2 with
      | nil => rfl
      | @cons c l cs ls h1 _ ih =>
        have h3 := mapMM_length h1
        have h4 := hb c (by simp)
        simp only [List.map_cons, ih fun c' h' => hb c' (List.mem_cons_of_mem _ h')]
        rw [h3]
        congr 1
        simp [chunkOf]; omega

end Mpi
end KMC

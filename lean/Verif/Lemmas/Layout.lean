import Verif.Model.FileUtils
import Mathlib.Tactic.Linarith
import Mathlib.Tactic.Ring
/-!
# Lemmas on the container layout
-/

namespace Verif.Layout

/-- Metadata blocks in front of sub-block-set `c` of super block set `q`. -/
def mcount (N q c : Nat) : Nat := if q = 0 ∧ c < 1 + N then 1 + c else 1 + N

theorem decomp (S B i : Nat) (hS : 0 < S) (hB : 0 < B) :
    ∃ q a c, a < B ∧ c < S ∧ i = q * (S * B) + (a * S + c) := by
  have hSB : 0 < S * B := Nat.mul_pos hS hB
  refine ⟨i / (S * B), i % (S * B) / S, i % (S * B) % S, ?_, Nat.mod_lt _ hS, ?_⟩
  · rw [Nat.div_lt_iff_lt_mul hS, Nat.mul_comm B S]; exact Nat.mod_lt _ hSB
  · have h1 := Nat.div_add_mod i (S * B)
    have h2 := Nat.div_add_mod (i % (S * B)) S
    rw [Nat.mul_comm _ S, h2, Nat.mul_comm, h1]

theorem lt_super {S B a c : Nat} (ha : a < B) (hc : c < S) : a * S + c < S * B := by
  calc a * S + c < a * S + S := by omega
    _ = S * (a + 1) := by ring
    _ ≤ S * B := Nat.mul_le_mul_left _ ha

theorem divmod_eq {m q r : Nat} (hr : r < m) : (q * m + r) / m = q ∧ (q * m + r) % m = r := by
  have hm : 0 < m := by omega
  constructor
  · rw [Nat.add_comm, Nat.add_mul_div_right _ _ hm, Nat.div_eq_of_lt hr]; omega
  · rw [Nat.add_comm, Nat.add_mul_mod_self_right, Nat.mod_eq_of_lt hr]

theorem write_form (M N B : Nat) (me : Option Bool) (q a c : Nat) (hB : 0 < B) (ha : a < B) (hc : c < M + N) :
    dataWriteIndex (q * ((M + N) * B) + (a * (M + N) + c) + 1) me (some ⟨M, N, B⟩) =
      mcount N q c + (M + N) * B * q + (c * B + a) := by
  have h1 := divmod_eq (q := q) (lt_super ha hc)
  have h2 := divmod_eq (q := a) hc
  simp only [dataWriteIndex, Nat.add_sub_cancel, show B ≠ 0 by omega, if_false, h1.1, h1.2, h2.1, h2.2, mcount]
  by_cases hq : q = 0 <;> simp [hq]

/-- The position of an index relative to the metadata blocks, and its inverse. -/
theorem seqAt_form (M N B : Nat) (me : Option Bool) (q a c : Nat) (hM : 0 < M) (hB : 0 < B) (ha : a < B)
    (hc : c < M + N) :
    seqAtIndex (mcount N q c + (M + N) * B * q + (c * B + a)) me (some ⟨M, N, B⟩) =
      ((q * ((M + N) * B) + (a * (M + N) + c)) % 2 ^ 32 + 1) % 2 ^ 32 := by
  set S := M + N with hS
  have hcb : c * B + a < S * B := by have := lt_super (S := B) (B := S) hc ha; rwa [Nat.mul_comm B S] at this
  have hsb := divmod_eq (q := q) hcb
  have hcb2 := divmod_eq (q := c) ha
  have hnm : ∀ m, (m + S * B * q + (c * B + a)) - m = q * (S * B) + (c * B + a) := by
    intro m; rw [Nat.mul_comm q]; omega
  have hN1 : (1 + N) * B ≤ S * B := Nat.mul_le_mul_right _ (by omega)
  unfold seqAtIndex
  simp only [show B ≠ 0 by omega, if_false]
  by_cases h : q = 0 ∧ c < 1 + N
  · obtain ⟨rfl, hcN⟩ := h
    have hm : mcount N 0 c = 1 + c := by simp [mcount, hcN]
    have hidx : mcount N 0 c + S * B * 0 + (c * B + a) = c * (1 + B) + (1 + a) := by rw [hm]; ring
    have hidx2 := divmod_eq (m := 1 + B) (q := c) (r := 1 + a) (by omega)
    have hlt : c * (1 + B) + (1 + a) < (1 + N) * (1 + B) := by
      have : (c + 1) * (1 + B) ≤ (1 + N) * (1 + B) := Nat.mul_le_mul_right _ (by omega)
      nlinarith
    rw [hidx, hidx2.1, hidx2.2]
    simp only [hlt, true_and, if_true]
    rw [if_neg (by omega), ← hm, ← hidx, hnm, hsb.1, hsb.2, hcb2.1, hcb2.2]
    congr 3
    ring
  · have hm : mcount N q c = 1 + N := by simp only [mcount, h, if_false]
    have hge : ¬ (mcount N q c + S * B * q + (c * B + a) < (1 + N) * (1 + B)) := by
      rw [hm]
      by_cases hq : q = 0
      · have hc2 : (1 + N) * B ≤ c * B := Nat.mul_le_mul_right _ (by omega)
        subst hq
        nlinarith
      · have : S * B * 1 ≤ S * B * q := Nat.mul_le_mul_left _ (by omega)
        nlinarith
    simp only [hge, false_and, if_false]
    rw [← hm, hnm, hsb.1, hsb.2, hcb2.1, hcb2.2]
    congr 3
    ring

/-- Every index is a metadata index or has the data form. -/
theorem index_cases (M N B : Nat) (hM : 0 < M) (hB : 0 < B) (i : Nat) :
    (∃ k, k ≤ N ∧ i = k * (1 + B)) ∨
    ∃ q a c, a < B ∧ c < M + N ∧ i = mcount N q c + (M + N) * B * q + (c * B + a) := by
  set S := M + N with hS
  have hN1 : (1 + N) * B ≤ S * B := Nat.mul_le_mul_right _ (by omega)
  by_cases hlt : i < (1 + N) * (1 + B)
  · have hk : i / (1 + B) < 1 + N := by rwa [Nat.div_lt_iff_lt_mul (by omega)]
    have hdm := Nat.div_add_mod i (1 + B)
    have hml := Nat.mod_lt i (show 0 < 1 + B by omega)
    by_cases h0 : i % (1 + B) = 0
    · left; refine ⟨i / (1 + B), by omega, ?_⟩
      rw [h0] at hdm; rw [Nat.mul_comm]; omega
    · right
      refine ⟨0, i % (1 + B) - 1, i / (1 + B), by omega, by omega, ?_⟩
      have : mcount N 0 (i / (1 + B)) = 1 + i / (1 + B) := by simp [mcount, hk]
      rw [this]
      have h2 : (1 + B) * (i / (1 + B)) = i / (1 + B) + i / (1 + B) * B := by ring
      omega
  · right
    have hge : (1 + N) * B ≤ i - (1 + N) := by
      have : (1 + N) * (1 + B) = (1 + N) + (1 + N) * B := by ring
      omega
    have hSB : 0 < S * B := Nat.mul_pos (by omega) hB
    have hdm := Nat.div_add_mod (i - (1 + N)) (S * B)
    have hdm2 := Nat.div_add_mod ((i - (1 + N)) % (S * B)) B
    have hcl : (i - (1 + N)) % (S * B) / B < S := by
      rw [Nat.div_lt_iff_lt_mul hB]; exact Nat.mod_lt _ hSB
    refine ⟨(i - (1 + N)) / (S * B), (i - (1 + N)) % (S * B) % B, (i - (1 + N)) % (S * B) / B, Nat.mod_lt _ hB, hcl, ?_⟩
    have hm : mcount N ((i - (1 + N)) / (S * B)) ((i - (1 + N)) % (S * B) / B) = 1 + N := by
      unfold mcount
      rw [if_neg]
      rintro ⟨hq, hc⟩
      rw [hq] at hdm
      simp only [Nat.mul_zero, Nat.zero_add] at hdm
      rw [hdm] at hc
      have := (Nat.div_lt_iff_lt_mul hB).1 hc
      omega
    rw [hm]
    rw [Nat.mul_comm B] at hdm2
    have : 1 + N ≤ i := by
      have : (1 + N) * (1 + B) = (1 + N) + (1 + N) * B := by ring
      omega
    omega

/-- Data blocks never sit at a metadata index. -/
theorem form_ne_meta (M N B : Nat) (hM : 0 < M) (q a c k : Nat) (ha : a < B) (hk : k ≤ N) :
    mcount N q c + (M + N) * B * q + (c * B + a) ≠ k * (1 + B) := by
  unfold mcount
  intro he
  split at he
  · rename_i h
    obtain ⟨rfl, hc⟩ := h
    have h1 := (divmod_eq (m := 1 + B) (q := c) (r := 1 + a) (by omega)).2
    have : 1 + c + (M + N) * B * 0 + (c * B + a) = c * (1 + B) + (1 + a) := by ring
    rw [this] at he
    rw [he, Nat.mul_mod_left] at h1
    omega
  · rename_i h
    have hkB : k * (1 + B) ≤ N * (1 + B) := Nat.mul_le_mul_right _ hk
    by_cases hq : q = 0
    · have hc2 : (1 + N) * B ≤ c * B := Nat.mul_le_mul_right _ (by omega)
      subst hq
      nlinarith
    · have h1 : (M + N) * B * 1 ≤ (M + N) * B * q := Nat.mul_le_mul_left _ (by omega)
      have h2 : (1 + N) * B ≤ (M + N) * B := Nat.mul_le_mul_right _ (by omega)
      nlinarith

theorem mem_metaDup (d : Dpb) (i : Nat) :
    i ∈ metaDupIndices (some d) ↔ ∃ k, 1 ≤ k ∧ k ≤ d.parity ∧ i = k * (1 + d.burst) := by
  simp only [metaDupIndices, List.mem_map, List.mem_range'_1]
  constructor
  · rintro ⟨k, hk, rfl⟩; exact ⟨k, by omega, by omega, rfl⟩
  · rintro ⟨k, h1, h2, rfl⟩; exact ⟨k, by omega, rfl⟩

theorem mem_metaAll (d : Dpb) (i : Nat) :
    i ∈ metaAllIndices (some d) ↔ ∃ k, k ≤ d.parity ∧ i = k * (1 + d.burst) := by
  unfold metaAllIndices
  rw [List.mem_mergeSort, List.mem_append, mem_metaDup]
  constructor
  · rintro (⟨k, _, h2, rfl⟩ | h)
    · exact ⟨k, h2, rfl⟩
    · simp at h; exact ⟨0, by omega, by simp [h]⟩
  · rintro ⟨k, hk, rfl⟩
    by_cases h : k = 0
    · right; simp [h]
    · left; exact ⟨k, by omega, hk, rfl⟩

/-- Within one RS set, the write indices of different shards are at least `B` apart. -/
theorem set_spacing (M N B : Nat) (me : Option Bool) (hB : 0 < B) (t c c' : Nat) (hcc : c < c') (hc' : c' < M + N) :
    dataWriteIndex (t * (M + N) + c + 1) me (some ⟨M, N, B⟩) + B ≤
      dataWriteIndex (t * (M + N) + c' + 1) me (some ⟨M, N, B⟩) := by
  have hdm := Nat.div_add_mod t B
  have hml := Nat.mod_lt t hB
  have e : ∀ x, t * (M + N) + x + 1 = (t / B) * ((M + N) * B) + (t % B * (M + N) + x) + 1 := by
    intro x
    conv_lhs => rw [← hdm]
    ring
  rw [e c, e c', write_form M N B me _ _ c hB hml (by omega), write_form M N B me _ _ c' hB hml hc']
  have h1 : mcount N (t / B) c ≤ mcount N (t / B) c' := by
    unfold mcount
    split <;> split <;> omega
  have h2 : c * B + B ≤ c' * B := by
    have : (c + 1) * B ≤ c' * B := Nat.mul_le_mul_right _ hcc
    linarith [Nat.succ_mul c B]
  omega

theorem write_form' (M N B : Nat) (me : Option Bool) (hM : 0 < M) (hB : 0 < B) (seq : Nat) (hs : 1 ≤ seq) :
    ∃ q a c, a < B ∧ c < M + N ∧ seq = q * ((M + N) * B) + (a * (M + N) + c) + 1 ∧
      dataWriteIndex seq me (some ⟨M, N, B⟩) = mcount N q c + (M + N) * B * q + (c * B + a) := by
  obtain ⟨q, a, c, ha, hc, hi⟩ := decomp (M + N) B (seq - 1) (by omega) hB
  refine ⟨q, a, c, ha, hc, by omega, ?_⟩
  have : seq = q * ((M + N) * B) + (a * (M + N) + c) + 1 := by omega
  rw [this, write_form M N B me q a c hB ha hc]

/-- Data blocks among the first `n`. -/
theorem chunks_closed (M N : Nat) (hM : 0 < M) (n : Nat) :
    (List.range n).countP (fun i => decide (i % (M + N) < M)) = n / (M + N) * M + min (n % (M + N)) M := by
  induction n with
  | zero => simp
  | succ n ih =>
    rw [List.range_succ, List.countP_append, ih]
    have hdm := Nat.div_add_mod n (M + N)
    have hml := Nat.mod_lt n (show 0 < M + N by omega)
    simp only [List.countP_singleton]
    by_cases hlast : n % (M + N) + 1 = M + N
    · have e : n + 1 = (n / (M + N) + 1) * (M + N) + 0 := by rw [Nat.succ_mul, Nat.mul_comm]; omega
      have := divmod_eq (m := M + N) (q := n / (M + N) + 1) (r := 0) (by omega)
      rw [← e] at this
      rw [this.1, this.2, Nat.succ_mul]
      split <;> simp_all <;> omega
    · have e : n + 1 = n / (M + N) * (M + N) + (n % (M + N) + 1) := by rw [Nat.mul_comm]; omega
      have := divmod_eq (m := M + N) (q := n / (M + N)) (r := n % (M + N) + 1) (by omega)
      rw [← e] at this
      rw [this.1, this.2]
      clear this e hdm ih
      by_cases hlt : n % (M + N) < M
      · simp only [hlt, decide_true, if_true]; omega
      · simp only [hlt, decide_false, if_false, Bool.false_eq_true]; omega

end Verif.Layout

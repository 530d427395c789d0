import Verif.Lemmas.Layout
import Verif.Spec.Layout
/-!
# Lemmas on block counts and the container size
-/

namespace Verif.FileUtils
open Layout LayoutSpec

theorem ceil_eq (a b : Nat) (hb : 0 < b) : (a + (b - 1)) / b = ceilDiv a b := by
  unfold ceilDiv
  have hdm := Nat.div_add_mod a b
  have hml := Nat.mod_lt a hb
  split
  · rename_i h0
    have : a + (b - 1) = a / b * b + (b - 1) := by rw [Nat.mul_comm]; omega
    rw [this]; exact (divmod_eq (by omega)).1
  · have : a + (b - 1) = (a / b + 1) * b + (a % b - 1) := by rw [Nat.succ_mul, Nat.mul_comm (a / b)]; omega
    rw [this]; exact (divmod_eq (by omega)).1

theorem dataSize_pos (v : Version) : 0 < v.dataSize := by cases v <;> decide
theorem blockSize_pos (v : Version) : 0 < v.blockSize := by cases v <;> decide

theorem dataBlockCount_eq (v : Version) (dpb : Option Dpb) (hv : Valid dpb) (size : Nat) :
    dataBlockCount v dpb size = blocksFor v.dataSize dpb size := by
  unfold dataBlockCount dataParityBlockCount blocksFor
  cases dpb with
  | none => simp [ceil_eq _ _ (dataSize_pos v)]
  | some d =>
    have := hv d rfl
    simp only
    rw [ceil_eq _ _ (dataSize_pos v), ceil_eq _ _ (by omega)]
    ring

theorem foldl_max_spec (f : Nat → Nat) (l : List Nat) (init : Nat) :
    init ≤ l.foldl (fun m s => if f s > m then f s else m) init ∧
    (∀ s ∈ l, f s ≤ l.foldl (fun m s => if f s > m then f s else m) init) ∧
    (l.foldl (fun m s => if f s > m then f s else m) init = init ∨
      ∃ s ∈ l, l.foldl (fun m s => if f s > m then f s else m) init = f s) := by
  induction l generalizing init with
  | nil => simp
  | cons x l ih =>
    obtain ⟨h1, h2, h3⟩ := ih (if f x > init then f x else init)
    simp only [List.foldl_cons]
    have hge : init ≤ (if f x > init then f x else init) ∧ f x ≤ (if f x > init then f x else init) := by
      split <;> omega
    refine ⟨by omega, ?_, ?_⟩
    · intro s hs
      rcases List.mem_cons.1 hs with rfl | hs
      · omega
      · exact h2 s hs
    · rcases h3 with h3 | ⟨s, hs, h3⟩
      · rw [h3]
        split
        · right; exact ⟨x, by simp, rfl⟩
        · left; rfl
      · right; exact ⟨s, by simp [hs], h3⟩

theorem maxIndexLoop_spec (me : Option Bool) (dpb : Option Dpb) (first last : Nat) (hfl : first ≤ last) :
    (∀ s, first ≤ s → s ≤ last → dataWriteIndex s me dpb ≤ maxIndexLoop me dpb first last) ∧
    ((∀ s, first ≤ s → s ≤ last → 0 < dataWriteIndex s me dpb) →
      ∃ s, first ≤ s ∧ s ≤ last ∧ maxIndexLoop me dpb first last = dataWriteIndex s me dpb) := by
  obtain ⟨_, h2, h3⟩ := foldl_max_spec (fun s => dataWriteIndex s me dpb) (List.range' first (last + 1 - first)) 0
  have hmem : ∀ s, s ∈ List.range' first (last + 1 - first) ↔ first ≤ s ∧ s ≤ last := by
    intro s; rw [List.mem_range'_1]; omega
  refine ⟨fun s a b => h2 s ((hmem s).2 ⟨a, b⟩), fun hpos => ?_⟩
  rcases h3 with h3 | ⟨s, hs, h3⟩
  · exfalso
    have := h2 first ((hmem first).2 ⟨by omega, hfl⟩)
    rw [h3] at this
    have := hpos first (by omega) hfl
    omega
  · exact ⟨s, ((hmem s).1 hs).1, ((hmem s).1 hs).2, h3⟩

/-- Earlier super block sets lie before later ones. -/
theorem super_order (M N B : Nat) (me : Option Bool) (hM : 0 < M) (hB : 0 < B) (s s' : Nat) (hs : 1 ≤ s)
    (h : (s - 1) / ((M + N) * B) < (s' - 1) / ((M + N) * B)) (hs' : 1 ≤ s') :
    dataWriteIndex s me (some ⟨M, N, B⟩) < dataWriteIndex s' me (some ⟨M, N, B⟩) := by
  obtain ⟨q, a, c, ha, hc, hsq, hw⟩ := write_form' M N B me hM hB s hs
  obtain ⟨q', a', c', ha', hc', hsq', hw'⟩ := write_form' M N B me hM hB s' hs'
  have e : (s - 1) / ((M + N) * B) = q := by
    rw [hsq, Nat.add_sub_cancel]; exact (divmod_eq (lt_super ha hc)).1
  have e' : (s' - 1) / ((M + N) * B) = q' := by
    rw [hsq', Nat.add_sub_cancel]; exact (divmod_eq (lt_super ha' hc')).1
  rw [e, e'] at h
  rw [hw, hw']
  have m1 : mcount N q c ≤ 1 + N := by unfold mcount; split <;> omega
  have m2 : mcount N q' c' = 1 + N := by unfold mcount; rw [if_neg]; omega
  have l1 : c * B + a < (M + N) * B := by
    have := lt_super (S := B) (B := M + N) hc ha; rwa [Nat.mul_comm B] at this
  have l2 : (M + N) * B * (q + 1) ≤ (M + N) * B * q' := Nat.mul_le_mul_left _ h
  rw [Nat.mul_add] at l2
  omega

theorem write_pos_pos (M N B : Nat) (me : Option Bool) (hM : 0 < M) (hB : 0 < B) (s : Nat) (hs : 1 ≤ s) :
    0 < dataWriteIndex s me (some ⟨M, N, B⟩) := by
  obtain ⟨q, a, c, ha, hc, hsq, hw⟩ := write_form' M N B me hM hB s hs
  rw [hw]; unfold mcount; split <;> omega

/-- The last shard of a set lies after every metadata copy. -/
theorem last_shard_after_meta (M N B : Nat) (me : Option Bool) (hM : 0 < M) (hB : 0 < B) (t k : Nat) (hk : k ≤ N) :
    k * (1 + B) < dataWriteIndex (t * (M + N) + (M + N - 1) + 1) me (some ⟨M, N, B⟩) := by
  have hdm := Nat.div_add_mod t B
  have hml := Nat.mod_lt t hB
  have e : t * (M + N) + (M + N - 1) + 1 = (t / B) * ((M + N) * B) + (t % B * (M + N) + (M + N - 1)) + 1 := by
    conv_lhs => rw [← hdm]
    ring
  rw [e, write_form M N B me _ _ _ hB hml (by omega)]
  have hkB : k * (1 + B) ≤ N * (1 + B) := Nat.mul_le_mul_right _ hk
  have hc : N * B ≤ (M + N - 1) * B := Nat.mul_le_mul_right _ (by omega)
  have e2 : N * (1 + B) = N + N * B := by ring
  unfold mcount
  split <;> omega

/-- The last shard of a set lies after every block with a smaller sequence number. -/
theorem last_shard_max (M N B : Nat) (me : Option Bool) (hM : 0 < M) (hB : 0 < B) (t s : Nat) (hs : 1 ≤ s)
    (hle : s ≤ t * (M + N) + (M + N - 1) + 1) :
    dataWriteIndex s me (some ⟨M, N, B⟩) ≤ dataWriteIndex (t * (M + N) + (M + N - 1) + 1) me (some ⟨M, N, B⟩) := by
  have hdm := Nat.div_add_mod t B
  have hml := Nat.mod_lt t hB
  have e : t * (M + N) + (M + N - 1) + 1 = (t / B) * ((M + N) * B) + (t % B * (M + N) + (M + N - 1)) + 1 := by
    conv_lhs => rw [← hdm]
    ring
  by_cases hq : (s - 1) / ((M + N) * B) < (t * (M + N) + (M + N - 1) + 1 - 1) / ((M + N) * B)
  · exact Nat.le_of_lt (super_order M N B me hM hB s _ hs hq (by omega))
  · obtain ⟨q, a, c, ha, hc, hsq, hw⟩ := write_form' M N B me hM hB s hs
    have e1 : (s - 1) / ((M + N) * B) = q := by
      rw [hsq, Nat.add_sub_cancel]; exact (divmod_eq (lt_super ha hc)).1
    have e2 : (t * (M + N) + (M + N - 1) + 1 - 1) / ((M + N) * B) = t / B := by
      rw [e, Nat.add_sub_cancel]; exact (divmod_eq (lt_super hml (by omega))).1
    have e3 : (s - 1) / ((M + N) * B) ≤ (t * (M + N) + (M + N - 1) + 1 - 1) / ((M + N) * B) :=
      Nat.div_le_div_right (by omega)
    have hqt : q = t / B := by omega
    subst hqt
    rw [hw, e, write_form M N B me _ _ _ hB hml (by omega)]
    have hat : a ≤ t % B := by
      have h : a * (M + N) + c ≤ t % B * (M + N) + (M + N - 1) := by omega
      have h1 := Nat.div_le_div_right (c := M + N) h
      rwa [(divmod_eq hc).1, (divmod_eq (show M + N - 1 < M + N by omega)).1] at h1
    have hcB : c * B ≤ (M + N - 1) * B := Nat.mul_le_mul_right _ (by omega)
    have hmc : mcount N (t / B) c ≤ mcount N (t / B) (M + N - 1) := by
      unfold mcount
      split <;> split <;> omega
    omega

end Verif.FileUtils

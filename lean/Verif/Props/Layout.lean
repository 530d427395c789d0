import Verif.Lemmas.Layout
import Verif.Spec.Layout
/-!
# C10 - C14: where blocks go
-/

namespace Verif
open Layout LayoutSpec

/-! ### C10 -/

/-- **C10.** The metadata positions used by the program are the documented ones, in increasing order. -/
theorem C10_meta_positions (d : Dpb) (me : Option Bool) :
    metaAllIndices (some d) = metaCopies me (some d) ∧ metaAllIndices none = [0] := by
  constructor
  · unfold metaAllIndices metaCopies
    have hp : ((metaDupIndices (some d) ++ [0]).mergeSort (· ≤ ·)).Perm
        ((List.range (1 + d.parity)).map fun k => k * (1 + d.burst)) := by
      refine (List.mergeSort_perm _ _).trans ?_
      rw [Nat.add_comm 1 d.parity, List.range_succ_eq_map, List.map_cons, List.map_map, metaDupIndices]
      have : (List.range' 1 d.parity).map (fun i => i * (1 + d.burst)) =
          (List.range d.parity).map ((fun k => k * (1 + d.burst)) ∘ Nat.succ) := by
        rw [List.range'_eq_map_range, List.map_map]
        apply List.map_congr_left
        intro a _
        simp [Nat.add_comm]
      rw [this]
      simpa using List.perm_append_singleton 0 _
    refine List.Perm.eq_of_pairwise (le := (· ≤ ·)) ?_ ?_ ?_ hp
    · intro a b _ _ h1 h2; exact Nat.le_antisymm h1 h2
    · have := List.pairwise_mergeSort (le := fun a b : Nat => decide (a ≤ b)) (by intro a b c; simp; omega)
        (by intro a b; simp; omega) (metaDupIndices (some d) ++ [0])
      exact this.imp (by simp)
    · rw [List.pairwise_map]
      exact (List.pairwise_lt_range).imp (fun h => Nat.mul_le_mul_right _ (Nat.le_of_lt h))
  · simp [metaAllIndices, metaDupIndices]

/-- **C10.** Metadata copies are at pairwise different places, and there are `1 + parity` of them. -/
theorem C10_meta_distinct (d : Dpb) (me : Option Bool) :
    (metaCopies me (some d)).Nodup ∧ (metaCopies me (some d)).length = 1 + d.parity := by
  constructor
  · unfold metaCopies
    rw [List.nodup_iff_pairwise_ne, List.pairwise_map]
    refine (List.nodup_iff_pairwise_ne.1 List.nodup_range).imp ?_
    intro a b hne h
    exact hne (Nat.eq_of_mul_eq_mul_right (by omega) h)
  · simp [metaCopies]

/-- **C10.** Two different sequence numbers are never written at the same block index. -/
theorem C10_data_injective (me : Option Bool) (dpb : Option Dpb) (hv : Valid dpb) (s s' : Nat) (hs : 1 ≤ s) (hs' : 1 ≤ s')
    (h : dataWriteIndex s me dpb = dataWriteIndex s' me dpb) : s = s' := by
  cases dpb with
  | none => simp only [dataWriteIndex] at h; split at h <;> omega
  | some d =>
    obtain ⟨M, N, B⟩ := d
    have hM : 0 < M := hv _ rfl
    by_cases hB : B = 0
    · subst hB; simp [dataWriteIndex] at h; omega
    · obtain ⟨q, a, c, ha, hc, hsq, hw⟩ := write_form' M N B me hM (by omega) s hs
      obtain ⟨q', a', c', ha', hc', hsq', hw'⟩ := write_form' M N B me hM (by omega) s' hs'
      rw [hw, hw'] at h
      -- remove the metadata count by looking at which side of the metadata area the index is on
      have key : ∀ q c a q' c' a', a < B → c < M + N → a' < B → c' < M + N →
          mcount N q c + (M + N) * B * q + (c * B + a) = mcount N q' c' + (M + N) * B * q' + (c' * B + a') →
          (q = q' ∧ c = c' ∧ a = a') := by
        intro q c a q' c' a' ha hc ha' hc' h
        have f : ∀ q c a, a < B → c < M + N →
            ((mcount N q c + (M + N) * B * q + (c * B + a) < (1 + N) * (1 + B)) ↔ (q = 0 ∧ c < 1 + N)) := by
          intro q c a ha hc
          have hN1 : (1 + N) * B ≤ (M + N) * B := Nat.mul_le_mul_right _ (by omega)
          have e : (1 + N) * (1 + B) = (1 + N) + (1 + N) * B := by ring
          constructor
          · intro hl
            by_contra hn
            have hm : mcount N q c = 1 + N := by simp only [mcount, hn, if_false]
            rw [hm] at hl
            by_cases hq : q = 0
            · have hc2 : (1 + N) * B ≤ c * B := Nat.mul_le_mul_right _ (by omega)
              subst hq; omega
            · have : (M + N) * B * 1 ≤ (M + N) * B * q := Nat.mul_le_mul_left _ (by omega)
              omega
          · rintro ⟨rfl, hcN⟩
            have hm : mcount N 0 c = 1 + c := by simp [mcount, hcN]
            rw [hm]
            have : (c + 1) * (1 + B) ≤ (1 + N) * (1 + B) := Nat.mul_le_mul_right _ (by omega)
            nlinarith
        have f1 := f q c a ha hc
        have f2 := f q' c' a' ha' hc'
        rw [h] at f1
        have hiff := f1.symm.trans f2
        by_cases hx : q = 0 ∧ c < 1 + N
        · have hx' := hiff.1 hx
          have m1 : mcount N q c = 1 + c := by simp [mcount, hx]
          have m2 : mcount N q' c' = 1 + c' := by simp [mcount, hx']
          obtain ⟨rfl, _⟩ := hx
          obtain ⟨rfl, _⟩ := hx'
          rw [m1, m2] at h
          have d1 := divmod_eq (m := 1 + B) (q := c) (r := 1 + a) (by omega)
          have d2 := divmod_eq (m := 1 + B) (q := c') (r := 1 + a') (by omega)
          have e1 : c * (1 + B) + (1 + a) = c' * (1 + B) + (1 + a') := by
            have : c * (1 + B) + (1 + a) = 1 + c + (M + N) * B * 0 + (c * B + a) := by ring
            rw [this, h]; ring
          rw [e1] at d1
          exact ⟨rfl, by omega, by omega⟩
        · have hx' : ¬ (q' = 0 ∧ c' < 1 + N) := fun h => hx (hiff.2 h)
          have m1 : mcount N q c = 1 + N := by simp only [mcount, hx, if_false]
          have m2 : mcount N q' c' = 1 + N := by simp only [mcount, hx', if_false]
          rw [m1, m2] at h
          have l1 : c * B + a < (M + N) * B := by
            have := lt_super (S := B) (B := M + N) hc ha; rwa [Nat.mul_comm B] at this
          have l2 : c' * B + a' < (M + N) * B := by
            have := lt_super (S := B) (B := M + N) hc' ha'; rwa [Nat.mul_comm B] at this
          have d1 := divmod_eq (q := q) l1
          have d2 := divmod_eq (q := q') l2
          have e1 : q * ((M + N) * B) + (c * B + a) = q' * ((M + N) * B) + (c' * B + a') := by
            rw [Nat.mul_comm q, Nat.mul_comm q']; omega
          rw [e1] at d1
          have d3 := divmod_eq (q := c) ha
          have d4 := divmod_eq (q := c') ha'
          have e2 : c * B + a = c' * B + a' := by omega
          rw [e2] at d3
          exact ⟨by omega, by omega, by omega⟩
      obtain ⟨rfl, rfl, rfl⟩ := key q c a q' c' a' ha hc ha' hc' h
      omega

/-- **C10.** No data or parity block is written over a metadata copy. -/
theorem C10_data_not_meta (me : Option Bool) (dpb : Option Dpb) (hv : Valid dpb) (s : Nat) (hs : 1 ≤ s) :
    dataWriteIndex s me dpb ∉ metaCopies me dpb := by
  cases dpb with
  | none =>
    cases me with
    | none => simp [dataWriteIndex, metaCopies]
    | some b => cases b <;> simp [dataWriteIndex, metaCopies]
  | some d =>
    obtain ⟨M, N, B⟩ := d
    have hM : 0 < M := hv _ rfl
    rw [← (C10_meta_positions ⟨M, N, B⟩ me).1, mem_metaAll]
    rintro ⟨k, hk, he⟩
    by_cases hB : B = 0
    · subst hB; simp [dataWriteIndex] at he hk; omega
    · obtain ⟨q, a, c, ha, hc, hsq, hw⟩ := write_form' M N B me hM (by omega) s hs
      rw [hw] at he
      exact form_ne_meta M N B hM q a c k ha hk he

/-- **C10.** In bytes: the areas of two different blocks do not overlap. -/
theorem C10_no_overlap (v : Version) (me : Option Bool) (dpb : Option Dpb) (hv : Valid dpb) (s s' : Nat) (hs : 1 ≤ s)
    (hs' : 1 ≤ s') (hne : s ≠ s') :
    dataWritePos v s me dpb + v.blockSize ≤ dataWritePos v s' me dpb ∨
    dataWritePos v s' me dpb + v.blockSize ≤ dataWritePos v s me dpb := by
  have h : dataWriteIndex s me dpb ≠ dataWriteIndex s' me dpb := fun h => hne (C10_data_injective me dpb hv s s' hs hs' h)
  unfold dataWritePos
  rcases Nat.lt_or_gt_of_ne h with h | h
  · left
    calc _ = (dataWriteIndex s me dpb + 1) * v.blockSize := by ring
      _ ≤ _ := Nat.mul_le_mul_right _ h
  · right
    calc _ = (dataWriteIndex s' me dpb + 1) * v.blockSize := by ring
      _ ≤ _ := Nat.mul_le_mul_right _ h

example : Valid (some ⟨10, 2, 10⟩) ∧ (List.range' 1 4).map (fun s => dataWriteIndex s none (some ⟨10, 2, 10⟩)) = [1, 12, 23, 33] ∧
    metaCopies none (some ⟨10, 2, 10⟩) = [0, 11, 22] := by
  refine ⟨?_, by decide, by decide⟩
  rintro d h; simp at h; subst h; decide

/-! ### C11 -/

/-- **C11.** The sequence number computed for the place of a block is that block's. -/
theorem C11_seq_of_position (me : Option Bool) (dpb : Option Dpb) (hv : Valid dpb) (s : Nat) (hs : 1 ≤ s) (hs' : s < 2 ^ 32) :
    seqAtIndex (dataWriteIndex s me dpb) me dpb = s := by
  cases dpb with
  | none =>
    simp only [dataWriteIndex, seqAtIndex]
    split
    · rw [Nat.mod_eq_of_lt] <;> omega
    · rw [Nat.mod_eq_of_lt (a := s - 1) (by omega), Nat.mod_eq_of_lt] <;> omega
  | some d =>
    obtain ⟨M, N, B⟩ := d
    have hM : 0 < M := hv _ rfl
    by_cases hB : B = 0
    · subst hB
      simp only [dataWriteIndex, seqAtIndex, if_true]
      rw [if_neg (by omega), Nat.mod_eq_of_lt] <;> omega
    · obtain ⟨q, a, c, ha, hc, hsq, hw⟩ := write_form' M N B me hM (by omega) s hs
      rw [hw, seqAt_form M N B me q a c hM (by omega) ha hc]
      rw [Nat.mod_eq_of_lt (a := q * ((M + N) * B) + (a * (M + N) + c)) (by omega), Nat.mod_eq_of_lt (by omega)]
      omega

/-- **C11.** 0 is computed for metadata positions. -/
theorem C11_seq_of_meta (me : Option Bool) (dpb : Option Dpb) (i : Nat) (hi : i ∈ metaCopies me dpb) :
    seqAtIndex i me dpb = 0 := by
  cases dpb with
  | none =>
    cases me with
    | none => simp [metaCopies] at hi; subst hi; rfl
    | some b => cases b <;> simp [metaCopies] at hi; subst hi; rfl
  | some d =>
    obtain ⟨M, N, B⟩ := d
    rw [← (C10_meta_positions ⟨M, N, B⟩ me).1, mem_metaAll] at hi
    obtain ⟨k, hk, rfl⟩ := hi
    simp only at hk ⊢
    unfold seqAtIndex
    by_cases hB : B = 0
    · subst hB; simp; omega
    · simp only [hB, if_false]
      rw [if_pos]
      exact ⟨(Nat.mul_lt_mul_right (by omega)).2 (by omega), Nat.mul_mod_left _ _⟩

/-- **C11.** No hidden gaps: every block index is a metadata copy or the place of exactly one sequence number. -/
theorem C11_no_gaps (me : Option Bool) (dpb : Option Dpb) (hv : Valid dpb) (i : Nat) :
    i ∈ metaCopies me dpb ∨ ∃ s, 1 ≤ s ∧ dataWriteIndex s me dpb = i ∧
      ∀ s', 1 ≤ s' → dataWriteIndex s' me dpb = i → s' = s := by
  suffices h : i ∈ metaCopies me dpb ∨ ∃ s, 1 ≤ s ∧ dataWriteIndex s me dpb = i by
    rcases h with h | ⟨s, h1, h2⟩
    · exact .inl h
    · exact .inr ⟨s, h1, h2, fun s' h1' h2' => C10_data_injective me dpb hv s' s h1' h1 (h2'.trans h2.symm)⟩
  cases dpb with
  | none =>
    have hdis : (me = some false ∧ me.getD true = false) ∨ (me ≠ some false ∧ me.getD true = true) := by
      cases me with
      | none => simp
      | some b => cases b <;> simp
    rcases hdis with ⟨h1, h2⟩ | ⟨h1, h2⟩
    · right; exact ⟨i + 1, by omega, by simp [dataWriteIndex, h2]⟩
    · by_cases hi : i = 0
      · left; simp [metaCopies, h1, hi]
      · right; exact ⟨i, by omega, by simp [dataWriteIndex, h2]; omega⟩
  | some d =>
    obtain ⟨M, N, B⟩ := d
    have hM : 0 < M := hv _ rfl
    rw [← (C10_meta_positions ⟨M, N, B⟩ me).1, mem_metaAll]
    by_cases hB : B = 0
    · subst hB
      by_cases hi : i ≤ N
      · left; exact ⟨i, hi, by simp⟩
      · right; exact ⟨i - N, by omega, by simp [dataWriteIndex]; omega⟩
    · rcases index_cases M N B hM (by omega) i with ⟨k, hk, he⟩ | ⟨q, a, c, ha, hc, he⟩
      · left; exact ⟨k, hk, he⟩
      · right
        exact ⟨q * ((M + N) * B) + (a * (M + N) + c) + 1, by omega,
          by rw [write_form M N B me q a c (by omega) ha hc, he]⟩

example : seqAtIndex 12 none (some ⟨10, 2, 10⟩) = 2 ∧ seqAtIndex 11 none (some ⟨10, 2, 10⟩) = 0 ∧
    seqAtIndex 0 (some false) none = 1 := by decide

/-! ### C12, C13 -/

private theorem countP_or_le {α : Type} (l : List α) (p q : α → Bool) :
    l.countP (fun x => p x || q x) ≤ l.countP p + l.countP q := by
  induction l with
  | nil => simp
  | cons x l ih =>
    simp only [List.countP_cons]
    cases p x <;> cases q x <;> simp <;> omega

private theorem countP_le_one {l : List Nat} (p : Nat → Bool) (hl : l.Pairwise (· < ·))
    (h : ∀ i ∈ l, ∀ j ∈ l, i < j → p i = true → p j = true → False) : l.countP p ≤ 1 := by
  induction l with
  | nil => simp
  | cons x l ih =>
    rw [List.countP_cons]
    have hx := List.pairwise_cons.1 hl
    by_cases hp : p x = true
    · have : l.countP p = 0 := by
        rw [List.countP_eq_zero]
        intro y hy hpy
        exact h x (by simp) y (by simp [hy]) (hx.1 y hy) hp hpy
      simp [hp, this]
    · simp only [hp]
      have := ih hx.2 (fun i hi j hj => h i (by simp [hi]) j (by simp [hj]))
      simpa using this

private theorem hits_le {l : List Nat} (w : Nat → Nat) (len : Nat) (hl : l.Pairwise (· < ·))
    (hsp : ∀ i ∈ l, ∀ j ∈ l, i < j → w i + len ≤ w j) (bursts : List (Nat × Nat)) (hb : ∀ b ∈ bursts, b.2 ≤ len) :
    l.countP (fun j => hit bursts (w j)) ≤ bursts.length := by
  induction bursts with
  | nil => simp [hit]
  | cons b bs ih =>
    have ih := ih (fun b hb' => hb b (by simp [hb']))
    have h1 : l.countP (fun j => decide (b.1 ≤ w j) && decide (w j < b.1 + b.2)) ≤ 1 := by
      apply countP_le_one _ hl
      intro i hi j hj hij h1 h2
      have := hsp i hi j hj hij
      have := hb b (by simp)
      simp at h1 h2
      omega
    have h2 := countP_or_le l (fun j => decide (b.1 ≤ w j) && decide (w j < b.1 + b.2)) (fun j => hit bs (w j))
    have h3 : (fun j => hit (b :: bs) (w j)) =
        (fun j => (decide (b.1 ≤ w j) && decide (w j < b.1 + b.2)) || hit bs (w j)) := by
      funext j; simp [hit]
    rw [h3, List.length_cons]
    omega

/-- **C12.** With burst level `B ≥ 1`, whatever at most `N` bursts of at most `B` consecutive blocks are lost, every
Reed-Solomon set (`t`-th set, shards `0 .. M+N`) keeps at least `M` of its `M + N` blocks. -/
theorem C12_burst_resistance (d : Dpb) (hB : 1 ≤ d.burst) (me : Option Bool) (bursts : List (Nat × Nat))
    (hlen : ∀ b ∈ bursts, b.2 ≤ d.burst) (hn : bursts.length ≤ d.parity) (t : Nat) :
    d.data ≤ (List.range (d.data + d.parity)).countP
      (fun j => !hit bursts (dataWriteIndex (t * (d.data + d.parity) + j + 1) me (some d))) := by
  obtain ⟨M, N, B⟩ := d
  simp only at *
  have h := hits_le (l := List.range (M + N)) (fun j => dataWriteIndex (t * (M + N) + j + 1) me (some ⟨M, N, B⟩)) B
    List.pairwise_lt_range
    (fun i _ j hj hij => set_spacing M N B me (by omega) t i j hij (List.mem_range.1 hj)) bursts hlen
  have := List.length_eq_countP_add_countP
    (fun j => hit bursts (dataWriteIndex (t * (M + N) + j + 1) me (some ⟨M, N, B⟩))) (l := List.range (M + N))
  simp only [List.length_range, Bool.not_eq_true, Bool.decide_eq_false] at this
  omega

/-- The bound is sharp: with `B = 2`, three bursts of two blocks destroy three shards of set 0 of a (2, 2) setting. -/
example : (List.range 4).countP (fun j => !hit [(1, 2), (4, 2), (7, 2)] (dataWriteIndex (0 * 4 + j + 1) none (some ⟨2, 2, 2⟩))) = 1 := by
  decide

/-- **C13.** Whatever at most `N` bursts of at most `max 1 B` (even `1 + B`) consecutive blocks are lost, one of the
`1 + N` metadata copies survives. -/
theorem C13_metadata_survives (d : Dpb) (me : Option Bool) (bursts : List (Nat × Nat))
    (hlen : ∀ b ∈ bursts, b.2 ≤ 1 + d.burst) (hn : bursts.length ≤ d.parity) :
    ∃ i ∈ metaCopies me (some d), hit bursts i = false := by
  by_contra hno
  have h := hits_le (l := List.range (1 + d.parity)) (fun k => k * (1 + d.burst)) (1 + d.burst) List.pairwise_lt_range
    (fun i _ j _ hij => by
      have : (i + 1) * (1 + d.burst) ≤ j * (1 + d.burst) := Nat.mul_le_mul_right _ hij
      rwa [Nat.succ_mul] at this) bursts hlen
  have hall : (List.range (1 + d.parity)).countP (fun k => hit bursts (k * (1 + d.burst))) = 1 + d.parity := by
    conv_rhs => rw [← List.length_range (n := 1 + d.parity)]
    rw [List.countP_eq_length]
    intro k hk
    by_contra hk'
    apply hno
    exact ⟨k * (1 + d.burst), List.mem_map_of_mem hk, by simpa using hk'⟩
  omega

example : (∀ b ∈ [(0, 2), (5, 2)], b.2 ≤ 1 + (⟨2, 2, 2⟩ : Dpb).burst) ∧
    (metaCopies none (some ⟨2, 2, 2⟩)).filter (fun i => !hit [(0, 2), (5, 2)] i) = [3] := by decide

theorem within_length (d : Dpb) (bursts : List (Nat × Nat)) (s : Nat) : (within d bursts s).length ≤ bursts.length :=
  List.length_filter_le _ _

theorem few {d : Dpb} {bursts : List (Nat × Nat)} (h : bursts.length ≤ d.parity) (s : Nat) : (within d bursts s).length ≤ d.parity :=
  (within_length d bursts s).trans h

/-- At the places of a super block set only the bursts within it matter. -/
theorem hit_within (d : Dpb) (bursts : List (Nat × Nat)) (i : Nat) : hit bursts i = hit (within d bursts (superSet d i)) i := by
  rw [Bool.eq_iff_iff]
  unfold hit within
  simp only [List.any_eq_true, List.mem_filter, Bool.and_eq_true, decide_eq_true_eq, List.mem_range, beq_iff_eq]
  constructor
  · rintro ⟨b, hb, h1, h2⟩
    exact ⟨b, ⟨hb, i - b.1, by omega, by rw [show b.1 + (i - b.1) = i by omega]⟩, h1, h2⟩
  · rintro ⟨b, ⟨hb, -⟩, h⟩
    exact ⟨b, hb, h⟩

/-- The blocks of a Reed-Solomon set lie in one super block set. -/
theorem superSet_data (d : Dpb) (me : Option Bool) (hB : 1 ≤ d.burst) (t j : Nat) (hj : j < d.data + d.parity) :
    superSet d (dataWriteIndex (t * (d.data + d.parity) + j + 1) me (some d)) = t / d.burst := by
  obtain ⟨M, N, B⟩ := d
  simp only at *
  have hdm := Nat.div_add_mod t B
  have ha := Nat.mod_lt t (show 0 < B by omega)
  generalize t / B = q at *
  generalize t % B = a at *
  have e : t * (M + N) + j + 1 = q * ((M + N) * B) + (a * (M + N) + j) + 1 := by
    rw [← hdm]; ring
  rw [e, write_form M N B me q a j (by omega) ha hj]
  have hl : j * B + a < (M + N) * B := by
    have := lt_super (S := B) (B := M + N) hj ha
    rwa [Nat.mul_comm B] at this
  unfold superSet
  simp only
  by_cases hx : q = 0 ∧ j < 1 + N
  · have m1 : mcount N q j = 1 + j := by simp [mcount, hx]
    obtain ⟨rfl, hj'⟩ := hx
    rw [m1]
    apply Nat.div_eq_of_lt
    omega
  · have m1 : mcount N q j = 1 + N := by simp only [mcount, hx, if_false]
    rw [m1, show 1 + N + (M + N) * B * q + (j * B + a) - (1 + N) = q * ((M + N) * B) + (j * B + a) by
      rw [Nat.mul_comm q]; omega]
    exact (divmod_eq hl).1

/-- The metadata copies lie in the first super block set. -/
theorem superSet_meta (d : Dpb) (me : Option Bool) (hB : 1 ≤ d.burst) (hM : 1 ≤ d.data) {i : Nat} (hi : i ∈ metaCopies me (some d)) :
    superSet d i = 0 := by
  obtain ⟨M, N, B⟩ := d
  simp only at *
  unfold metaCopies at hi
  obtain ⟨k, hk, rfl⟩ := List.mem_map.1 hi
  rw [List.mem_range] at hk
  simp only at *
  unfold superSet
  simp only
  apply Nat.div_eq_of_lt
  have h1 : k * (1 + B) ≤ N * (1 + B) := Nat.mul_le_mul_right _ (by omega)
  have h2 : N * (1 + B) = N + N * B := by ring
  have h3 : (M + N) * B = M * B + N * B := by ring
  have h4 : 1 ≤ M * B := Nat.mul_pos hM hB
  omega

/-- **C12, for each super block set.** It is enough that each super block set is hit by at most `N` bursts, as the program `calc`
tells the user; there may be any number of bursts in the whole container. -/
theorem C12_super_sets (d : Dpb) (hB : 1 ≤ d.burst) (me : Option Bool) (bursts : List (Nat × Nat))
    (hlen : ∀ b ∈ bursts, b.2 ≤ d.burst) (hn : ∀ s, (within d bursts s).length ≤ d.parity) (t : Nat) :
    d.data ≤ (List.range (d.data + d.parity)).countP
      (fun j => !hit bursts (dataWriteIndex (t * (d.data + d.parity) + j + 1) me (some d))) := by
  refine (C12_burst_resistance d hB me (within d bursts (t / d.burst)) (fun b hb => hlen b (List.mem_filter.1 hb).1) (hn _) t).trans ?_
  apply Nat.le_of_eq
  apply List.countP_congr
  intro j hj
  rw [hit_within d bursts, superSet_data d me hB t j (List.mem_range.1 hj)]

/-- **C13, for each super block set.** Only the bursts in the first one matter. -/
theorem C13_super_sets (d : Dpb) (hB : 1 ≤ d.burst) (hM : 1 ≤ d.data) (me : Option Bool) (bursts : List (Nat × Nat))
    (hlen : ∀ b ∈ bursts, b.2 ≤ 1 + d.burst) (hn : (within d bursts 0).length ≤ d.parity) :
    ∃ i ∈ metaCopies me (some d), hit bursts i = false := by
  obtain ⟨i, hi, h⟩ := C13_metadata_survives d me (within d bursts 0) (fun b hb => hlen b (List.mem_filter.1 hb).1) hn
  exact ⟨i, hi, by rw [hit_within d, superSet_meta d me hB hM hi]; exact h⟩

/-- Seven bursts of two blocks, but at most two in each super block set of eight blocks (behind three metadata copies). -/
example : (∀ b ∈ [(0, 2), (5, 2), (12, 2), (18, 1), (20, 2), (25, 2), (28, 1)], b.2 ≤ (⟨2, 2, 2⟩ : Dpb).burst) ∧
    ∀ s < 4, (within ⟨2, 2, 2⟩ [(0, 2), (5, 2), (12, 2), (18, 1), (20, 2), (25, 2), (28, 1)] s).length ≤ 2 := by decide

/-- A burst as a sequence of shorter ones. -/
theorem hit_split (a n B i : Nat) (hB : 1 ≤ B) :
    hit [(a, n * B)] i = hit ((List.range n).map fun k => (a + k * B, B)) i := by
  rw [Bool.eq_iff_iff]
  unfold hit
  simp only [List.any_eq_true, List.mem_map, List.mem_range, Bool.and_eq_true, decide_eq_true_eq, List.mem_singleton]
  constructor
  · rintro ⟨b, rfl, h1, h2⟩
    simp only at h1 h2
    have hlt : (i - a) / B < n := (Nat.div_lt_iff_lt_mul (by omega)).2 (by omega)
    refine ⟨_, ⟨(i - a) / B, hlt, rfl⟩, ?_⟩
    simp only
    have hdm := Nat.div_add_mod (i - a) B
    have := Nat.mod_lt (i - a) (show 0 < B by omega)
    rw [Nat.mul_comm] at hdm
    omega
  · rintro ⟨b, ⟨k, hk, rfl⟩, h1, h2⟩
    refine ⟨_, rfl, ?_⟩
    simp only at *
    have : (k + 1) * B ≤ n * B := Nat.mul_le_mul_right _ hk
    rw [Nat.succ_mul] at this
    omega

/-- **C12, one long burst.** A single burst may be `N * B` blocks long. -/
theorem C12_one_burst (d : Dpb) (hB : 1 ≤ d.burst) (me : Option Bool) (a t : Nat) :
    d.data ≤ (List.range (d.data + d.parity)).countP
      (fun j => !hit [(a, d.parity * d.burst)] (dataWriteIndex (t * (d.data + d.parity) + j + 1) me (some d))) := by
  simp only [hit_split a d.parity d.burst _ hB]
  exact C12_burst_resistance d hB me _ (fun b hb => by
    obtain ⟨k, -, rfl⟩ := List.mem_map.1 hb
    exact Nat.le_refl _) (by simp) t

example : (List.range 4).countP (fun j => !hit [(4, 4)] (dataWriteIndex (0 * 4 + j + 1) none (some ⟨2, 2, 2⟩))) = 2 := by decide

/-! ### C14 -/

/-- **C14.** Without Reed-Solomon, sequence number `s ≥ 1` carries chunk `s - 1`; metadata carries none. -/
theorem C14_chunk_plain (v : Version) (s : Nat) :
    chunkWritePos v s none = if s = 0 then none else some ((s - 1) * v.dataSize) := by
  unfold chunkWritePos chunkWriteIndex
  by_cases h : s = 0
  · simp [h]
  · rw [if_neg (by omega), if_neg h]; rfl

/-- **C14.** With Reed-Solomon, metadata and parity blocks carry no chunk, and a data block carries the chunk whose
number is the number of data blocks before it. -/
theorem C14_chunk_rs (v : Version) (s M N : Nat) (hM : 1 ≤ M) :
    chunkWritePos v s (some (M, N)) =
      if s = 0 ∨ M ≤ (s - 1) % (M + N) then none else some (chunksBefore M N s * v.dataSize) := by
  unfold chunkWritePos chunkWriteIndex isParity
  by_cases h : s = 0
  · simp [h]
  · simp only [h, false_or, if_false]
    rw [if_neg (by omega)]
    by_cases hp : M ≤ (s - 1) % (M + N)
    · simp [hp]
    · simp only [hp, decide_false, if_false, Bool.false_eq_true]
      rw [chunksBefore, chunks_closed M N (by omega), Nat.min_eq_left (by omega)]
      rfl

/-- **C14.** Every chunk is carried by exactly one sequence number. -/
theorem C14_chunk_bijective (M N : Nat) (hM : 1 ≤ M) (k : Nat) :
    ∃ s, chunkWriteIndex s (some (M, N)) = some k ∧ ∀ s', chunkWriteIndex s' (some (M, N)) = some k → s' = s := by
  have inv : ∀ s, chunkWriteIndex s (some (M, N)) = some k →
      s = k / M * (M + N) + k % M + 1 := by
    intro s hs
    unfold chunkWriteIndex isParity at hs
    split at hs
    · simp at hs
    · rename_i h0
      have h0' : s ≠ 0 := by omega
      simp only [h0', if_false] at hs
      split at hs
      · simp at hs
      · rename_i hp
        simp only [decide_eq_true_eq, Nat.not_le] at hp
        simp only [Option.some.injEq] at hs
        have := divmod_eq (m := M) (q := (s - 1) / (M + N)) hp
        rw [hs] at this
        have hdm := Nat.div_add_mod (s - 1) (M + N)
        rw [this.1, this.2, Nat.mul_comm]; omega
  refine ⟨k / M * (M + N) + k % M + 1, ?_, inv⟩
  have hm := Nat.mod_lt k (show 0 < M by omega)
  have := divmod_eq (m := M + N) (q := k / M) (r := k % M) (by omega)
  unfold chunkWriteIndex isParity
  simp only [Nat.add_sub_cancel, this.1, this.2]
  rw [if_neg (by omega), if_neg (by simp; omega)]
  have := Nat.div_add_mod k M
  rw [Nat.mul_comm] at this
  simp only [Option.some.injEq]; exact this

/-- **C14.** Later data blocks carry later chunks. -/
theorem C14_chunk_increasing (M N : Nat) (hM : 1 ≤ M) (s s' k k' : Nat) (hlt : s < s')
    (h : chunkWriteIndex s (some (M, N)) = some k) (h' : chunkWriteIndex s' (some (M, N)) = some k') : k < k' := by
  obtain ⟨u, hu, huniq⟩ := C14_chunk_bijective M N hM k
  obtain ⟨u', hu', huniq'⟩ := C14_chunk_bijective M N hM k'
  have c : ∀ s k, chunkWriteIndex s (some (M, N)) = some k → s ≠ 0 ∧ ¬ M ≤ (s - 1) % (M + N) ∧ k = chunksBefore M N s := by
    intro s k h
    have := C14_chunk_rs .v2 s M N hM
    unfold chunkWritePos at this
    rw [h] at this
    simp only [Option.map_some] at this
    split at this
    · simp at this
    · rename_i hc
      simp only [Option.some.injEq] at this
      refine ⟨by omega, by omega, ?_⟩
      exact Nat.eq_of_mul_eq_mul_right (show 0 < Version.dataSize .v2 by decide) this
  obtain ⟨a1, a2, rfl⟩ := c s k h
  obtain ⟨b1, b2, rfl⟩ := c s' k' h'
  unfold chunksBefore
  obtain ⟨e, he⟩ : ∃ e, s' - 1 = (s - 1) + 1 + e := ⟨s' - 1 - s, by omega⟩
  rw [he, List.range_add, List.range_succ, List.countP_append, List.countP_append, List.countP_singleton]
  have : decide ((s - 1) % (M + N) < M) = true := by simp; omega
  rw [if_pos this]
  omega

example : (List.range 8).map (fun s => chunkWriteIndex s (some (2, 1))) =
    [none, some 0, some 1, none, some 2, some 3, none, some 4] := by decide

end Verif

import Verif.Model.File
import Mathlib.FieldTheory.Finite.GaloisField
import Mathlib.LinearAlgebra.Lagrange
/-!
# The assumption about the Reed-Solomon codec can be met

A codec over the field with 256 elements: a set of data shards is, at each byte position, the values of a polynomial of
degree below `data` at the first `data` nodes; the parity shards are its values at the next `parity` nodes.  (Not a model of
the crate's matrix arithmetic, only a witness that `RsCodec.Laws` is not contradictory.)
-/

namespace Verif.RsWitness
open Polynomial Finset

noncomputable section

instance : Fact (Nat.Prime 2) := ⟨Nat.prime_two⟩

abbrev F := GaloisField 2 8

theorem card_eq : Nat.card F = Nat.card (Fin 256) := by
  rw [GaloisField.card 2 8 (by decide), Nat.card_eq_fintype_card, Fintype.card_fin]; rfl

/-- Bytes as field elements. -/
def ofFin : Fin 256 ≃ F :=
  haveI : Finite F := Nat.finite_of_card_ne_zero (by rw [card_eq, Nat.card_eq_fintype_card, Fintype.card_fin]; decide)
  (Classical.choice (Finite.card_eq.1 card_eq)).symm

def toF (b : Byte) : F := ofFin b.toFin
def fromF (x : F) : Byte := ⟨⟨ofFin.symm x⟩⟩

theorem toF_fromF (x : F) : toF (fromF x) = x := by
  unfold toF fromF UInt8.toFin
  exact ofFin.apply_symm_apply x

theorem toF_inj {a b : Byte} (h : toF a = toF b) : a = b := by
  have := ofFin.injective h
  exact UInt8.toFin_inj.1 this

def node (i : Nat) : F := if h : i < 256 then ofFin ⟨i, h⟩ else 0

theorem node_injOn {s : Finset ℕ} (h : ∀ i ∈ s, i < 256) : Set.InjOn node s := by
  intro i hi j hj hij
  have hi' := h i hi
  have hj' := h j hj
  unfold node at hij
  rw [dif_pos hi', dif_pos hj'] at hij
  simpa using ofFin.injective hij

def poly (d : Nat) (ds : List (List Byte)) (j : Nat) : F[X] :=
  Lagrange.interpolate (range d) node fun i => toF ((ds.getD i []).getD j 0)

def encode (d p : Nat) (ds : List (List Byte)) : List (List Byte) :=
  (List.range p).map fun i => (List.range (ds.headD []).length).map fun j => fromF ((poly d ds j).eval (node (d + i)))

/-- Present shards agree with the code word of `ds`. -/
def Fits (d p : Nat) (sh : List (List Byte × Bool)) (n : Nat) (ds : List (List Byte)) : Prop :=
  ds.length = d ∧ (∀ x ∈ ds, x.length = n) ∧ ∀ (i : Nat) x, sh[i]? = some (x, true) → (ds ++ encode d p ds)[i]? = some x

open Classical in
def codec : RsCodec where
  encode := encode
  reconstruct d p sh :=
    if d ≤ sh.countP (·.2) then
      if h : ∃ ds n, (∀ x ∈ sh, x.1.length = n) ∧ Fits d p sh n ds then some (h.choose ++ encode d p h.choose)
      else some (sh.map (·.1))
    else none

theorem headD_length {ds : List (List Byte)} {d n : Nat} (hd : 1 ≤ d) (hl : ds.length = d) (hn : ∀ x ∈ ds, x.length = n) :
    (ds.headD []).length = n := by
  cases ds with
  | nil => simp at hl; omega
  | cons a t => exact hn a (by simp)

theorem encode_length {d p n : Nat} {ds : List (List Byte)} (hd : 1 ≤ d) (hl : ds.length = d) (hn : ∀ x ∈ ds, x.length = n) :
    (encode d p ds).length = p ∧ ∀ x ∈ encode d p ds, x.length = n := by
  unfold encode
  rw [headD_length hd hl hn]
  refine ⟨by simp, ?_⟩
  intro x hx
  simp only [List.mem_map] at hx
  obtain ⟨i, _, rfl⟩ := hx
  simp

/-- Every shard of a code word consists of values of the polynomials. -/
theorem word_eval {d p n : Nat} {ds : List (List Byte)} (hd : 1 ≤ d) (hdp : d + p ≤ 256) (hl : ds.length = d)
    (hn : ∀ x ∈ ds, x.length = n) {k : Nat} {x : List Byte} (hx : (ds ++ encode d p ds)[k]? = some x) {j : Nat} (hj : j < n) :
    toF (x.getD j 0) = (poly d ds j).eval (node k) := by
  by_cases hk : k < d
  · rw [List.getElem?_append_left (by omega)] at hx
    unfold poly
    rw [Lagrange.eval_interpolate_at_node _ (node_injOn (by intro i hi; rw [mem_range] at hi; omega)) (by simpa using hk),
      List.getD_eq_getElem?_getD (l := ds), hx]
    rfl
  · rw [List.getElem?_append_right (by omega), hl] at hx
    unfold encode at hx
    rw [headD_length hd hl hn, List.getElem?_map] at hx
    by_cases hkp : k - d < p
    · rw [List.getElem?_range hkp] at hx
      simp only [Option.map_some, Option.some.injEq] at hx
      subst hx
      rw [List.getD_eq_getElem?_getD, List.getElem?_map, List.getElem?_range hj]
      simp only [Option.map_some, Option.getD_some, toF_fromF]
      rw [Nat.add_sub_cancel' (by omega)]
    · rw [List.getElem?_eq_none (by simpa using hkp)] at hx
      simp at hx

theorem word_length {d p n : Nat} {ds : List (List Byte)} (hd : 1 ≤ d) (hl : ds.length = d) (hn : ∀ x ∈ ds, x.length = n)
    {k : Nat} {x : List Byte} (hx : (ds ++ encode d p ds)[k]? = some x) : x.length = n := by
  have := List.mem_of_getElem? hx
  rcases List.mem_append.1 this with h | h
  · exact hn x h
  · exact (encode_length hd hl hn).2 x h

/-- Positions of the present shards. -/
def present (sh : List (List Byte × Bool)) : Finset ℕ := (range sh.length).filter fun i => (sh[i]?.map (·.2)) = some true

theorem present_card (sh : List (List Byte × Bool)) : #(present sh) = sh.countP (·.2) := by
  induction sh using List.reverseRecOn with
  | nil => rfl
  | append_singleton l a ih =>
    unfold present at ih ⊢
    rw [List.length_append, List.length_singleton, range_add_one, filter_insert, List.countP_append, ← ih]
    have hsame : filter (fun i => ((l ++ [a])[i]?.map (·.2)) = some true) (range l.length) =
        filter (fun i => (l[i]?.map (·.2)) = some true) (range l.length) := by
      apply filter_congr
      intro i hi
      rw [List.getElem?_append_left (by simpa using hi)]
    rw [hsame]
    have hat : (l ++ [a])[l.length]? = some a := by simp
    rw [hat]
    by_cases ha : a.2 = true
    · rw [if_pos (by simpa using ha), card_insert_of_notMem (by simp)]
      simp [ha]
    · rw [if_neg (by simpa using ha)]
      simp [ha]

/-- Two code words that agree with enough present shards are the same. -/
theorem fits_unique {d p n n' : Nat} {sh : List (List Byte × Bool)} {ds ds' : List (List Byte)} (hd : 1 ≤ d) (hdp : d + p ≤ 256)
    (hsh : sh.length = d + p) (hn : ∀ x ∈ sh, x.1.length = n) (hn' : ∀ x ∈ sh, x.1.length = n')
    (hc : d ≤ sh.countP (·.2)) (h : Fits d p sh n ds) (h' : Fits d p sh n' ds') : ds = ds' := by
  have hnn : n = n' := by
    have : sh ≠ [] := by intro h; rw [h] at hsh; simp at hsh; omega
    obtain ⟨a, ha⟩ := List.exists_mem_of_ne_nil _ this
    rw [← hn a ha, hn' a ha]
  subst hnn
  obtain ⟨l1, l2, l3⟩ := h
  obtain ⟨m1, m2, m3⟩ := h'
  have hpoly : ∀ j < n, poly d ds j = poly d ds' j := by
    intro j hj
    obtain ⟨s, hs, hcard⟩ := exists_subset_card_eq (s := present sh) (n := d) (by rw [present_card]; exact hc)
    have hlt : ∀ i ∈ s, i < 256 := by
      intro i hi
      have := (mem_filter.1 (hs hi)).1
      rw [mem_range] at this; omega
    have hdeg : ∀ ds, (poly d ds j).degree < #s := by
      intro ds
      rw [hcard]
      have := Lagrange.degree_interpolate_lt (s := range d) (v := node) (fun i => toF ((ds.getD i []).getD j 0))
        (node_injOn (by intro i hi; rw [mem_range] at hi; omega))
      simpa [poly] using this
    refine Polynomial.eq_of_degrees_lt_of_eval_index_eq s (node_injOn hlt) (hdeg ds) (hdeg ds') ?_
    intro i hi
    have hp := (mem_filter.1 (hs hi)).2
    rw [Option.map_eq_some_iff] at hp
    obtain ⟨⟨x, b⟩, e1, e2⟩ := hp
    simp only at e2
    subst e2
    rw [← word_eval hd hdp l1 l2 (l3 i x e1) hj, ← word_eval hd hdp m1 m2 (m3 i x e1) hj]
  apply List.ext_getElem?
  intro i
  by_cases hi : i < d
  · obtain ⟨x, hx⟩ : ∃ x, ds[i]? = some x := ⟨_, List.getElem?_eq_getElem (by omega)⟩
    obtain ⟨y, hy⟩ : ∃ y, ds'[i]? = some y := ⟨_, List.getElem?_eq_getElem (by omega)⟩
    have hxl := l2 x (List.mem_of_getElem? hx)
    have hyl := m2 y (List.mem_of_getElem? hy)
    rw [hx, hy]
    congr 1
    apply List.ext_getElem (by omega)
    intro j h1 h2
    apply toF_inj
    have a1 := word_eval (p := p) hd hdp l1 l2 (k := i) (x := x) (by rw [List.getElem?_append_left (by omega)]; exact hx) (j := j) (by omega)
    have a2 := word_eval (p := p) hd hdp m1 m2 (k := i) (x := y) (by rw [List.getElem?_append_left (by omega)]; exact hy) (j := j) (by omega)
    rw [hpoly j (by omega), ← a2] at a1
    simpa [List.getD_eq_getElem?_getD, h1, h2] using a1
  · rw [List.getElem?_eq_none (by omega), List.getElem?_eq_none (by omega)]

/-- The promises of the codec can be kept. -/
theorem codec_laws : codec.Laws where
  encode_length d p n ds hd _ _ hl hn := encode_length hd hl hn
  reconstruct_ok d p n ds sh hd _ hdp _ hl hn hsh hshn hfit hc := by
    have hex : ∃ ds n, (∀ x ∈ sh, x.1.length = n) ∧ Fits d p sh n ds := ⟨ds, n, hshn, hl, hn, hfit⟩
    unfold codec
    simp only
    rw [if_pos hc, dif_pos hex]
    obtain ⟨n', h1, h2⟩ := hex.choose_spec
    rw [fits_unique hd hdp hsh h1 hshn hc h2 ⟨hl, hn, hfit⟩]
  reconstruct_some d p n sh hd hp hdp hn hsh hshn hc := by
    unfold codec
    simp only
    rw [if_pos hc]
    split
    · rename_i hex
      obtain ⟨n', h1, h2⟩ := hex.choose_spec
      have hnn : n' = n := by
        have : sh ≠ [] := by intro h; rw [h] at hsh; simp at hsh; omega
        obtain ⟨a, ha⟩ := List.exists_mem_of_ne_nil _ this
        rw [← h1 a ha, hshn a ha]
      subst hnn
      obtain ⟨e1, e2⟩ := encode_length (p := p) hd h2.1 h2.2.1
      refine ⟨_, rfl, by rw [List.length_append, h2.1, e1], ?_⟩
      intro x hx
      rcases List.mem_append.1 hx with h | h
      · exact h2.2.1 x h
      · exact e2 x h
    · refine ⟨_, rfl, by rw [List.length_map, hsh], ?_⟩
      intro x hx
      obtain ⟨y, hy, rfl⟩ := List.mem_map.1 hx
      exact hshn y hy
  reconstruct_err d p sh hc := by
    unfold codec
    simp only
    rw [if_neg (by omega)]

end

end Verif.RsWitness

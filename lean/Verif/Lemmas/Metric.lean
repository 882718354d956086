import Verif.Lemmas.Loss
/-! Lemmas about the accuracy metrics. -/

set_option autoImplicit false

namespace DW.MetricL

open DW.Spec DW.MatL DW.Metric

/-- `k` is the first maximum of the list. -/
def FM (l : List ℝ) (k : Nat) : Prop :=
  ∃ m, l[k]? = some m ∧ ∀ (j : Nat) (x : ℝ), l[j]? = some x → x ≤ m ∧ (j < k → x < m)

theorem maxFrom_spec : ∀ (xs pre : List ℝ) (k : Nat) (m : ℝ), pre[k]? = some m →
    (∀ (j : Nat) (x : ℝ), pre[j]? = some x → x ≤ m ∧ (j < k → x < m)) → FM (pre ++ xs) (maxFrom m k pre.length xs)
  | [], pre, k, m, h, hm => by
    rw [List.append_nil, maxFrom]; exact ⟨m, h, hm⟩
  | x :: xs, pre, k, m, h, hm => by
    have hk := (List.getElem?_eq_some_iff.1 h).1
    have e : pre ++ x :: xs = (pre ++ [x]) ++ xs := by simp
    have hlen : (pre ++ [x]).length = pre.length + 1 := by simp
    rw [maxFrom, e]
    split
    · rename_i hlt
      have := maxFrom_spec xs (pre ++ [x]) pre.length x (by simp) (fun j y hj => ?_)
      · rwa [hlen] at this
      · by_cases hj' : j < pre.length
        · rw [List.getElem?_append_left hj'] at hj
          have := (hm j y hj).1
          exact ⟨le_trans this hlt.le, fun _ => lt_of_le_of_lt this hlt⟩
        · have : j = pre.length := by
            have := (List.getElem?_eq_some_iff.1 hj).1
            simp at this; omega
          subst this
          simp at hj
          exact ⟨hj ▸ le_refl _, fun h => absurd h (lt_irrefl _)⟩
    · rename_i hlt
      have := maxFrom_spec xs (pre ++ [x]) k m (by rw [List.getElem?_append_left hk]; exact h) (fun j y hj => ?_)
      · rwa [hlen] at this
      · by_cases hj' : j < pre.length
        · rw [List.getElem?_append_left hj'] at hj
          exact hm j y hj
        · have : j = pre.length := by
            have := (List.getElem?_eq_some_iff.1 hj).1
            simp at this; omega
          subst this
          simp at hj
          exact ⟨hj ▸ not_lt.1 hlt, fun h => by omega⟩

theorem argmax_spec {n : Nat} (r : Fin n → ℝ) (hn : 0 < n) :
    ∃ k : Fin n, argmax (List.ofFn r) = .ok k.val ∧ FirstMax r k := by
  obtain ⟨n, rfl⟩ : ∃ m, n = m + 1 := ⟨n - 1, by omega⟩
  have h : List.ofFn r = r 0 :: List.ofFn fun i : Fin n => r i.succ := List.ofFn_succ
  have := maxFrom_spec (List.ofFn fun i : Fin n => r i.succ) [r 0] 0 (r 0) (by simp) (fun j x hj => by
    have hj' := (List.getElem?_eq_some_iff.1 hj).1
    simp at hj'
    subst hj'
    simp at hj
    exact ⟨hj ▸ le_refl _, fun h => absurd h (lt_irrefl _)⟩)
  obtain ⟨m, e, hm⟩ := this
  have hk := (List.getElem?_eq_some_iff.1 e).1
  simp at hk
  replace hk := Nat.lt_succ_of_le hk
  refine ⟨⟨_, hk⟩, by rw [h]; rfl, ?_⟩
  have e' : [r 0] ++ (List.ofFn fun i : Fin n => r i.succ) = List.ofFn r := h.symm
  rw [e'] at e hm
  have hmv : r ⟨_, hk⟩ = m := by
    have : (List.ofFn r)[maxFrom (r 0) 0 1 (List.ofFn fun i : Fin n => r i.succ)]? = some m := e
    rw [List.getElem?_ofFn, dif_pos hk] at this
    exact Option.some.inj this
  have hr : ∀ j : Fin (n + 1), (List.ofFn r)[j.val]? = some (r j) := fun j => by rw [List.getElem?_ofFn, dif_pos j.2]
  constructor
  · intro j; rw [hmv]; exact (hm j.val _ (hr j)).1
  · intro j hj; rw [hmv]; exact (hm j.val _ (hr j)).2 hj

theorem firstMax_unique {n : Nat} {r : Fin n → ℝ} {k l : Fin n} (h1 : FirstMax r k) (h2 : FirstMax r l) : k = l := by
  rcases lt_trichotomy k l with h | h | h
  · exact absurd (h2.2 k h) (not_lt.2 (h1.1 l))
  · exact h
  · exact absurd (h1.2 l h) (not_lt.2 (h2.1 k))

theorem row_rowMajor {B n : Nat} (P : Fin B → Fin n → ℝ) (i : Fin B) : row (rowMajor P) n i.val = List.ofFn (P i) := by
  have hlen : i.val * n + n ≤ B * n := by
    calc i.val * n + n = (i.val + 1) * n := by ring
      _ ≤ B * n := Nat.mul_le_mul_right _ i.2
  apply List.ext_getElem?
  intro k
  by_cases hk : k < n
  · rw [row, List.getElem?_take_of_lt hk, List.getElem?_drop, rowMajor_getElem? P i ⟨k, hk⟩]
    simp [hk]
  · rw [List.getElem?_eq_none_iff.2 (by rw [row, List.length_take]; omega), List.getElem?_eq_none_iff.2 (by simp; omega)]

section
open Classical

/-- Number of rows below `i` with the property. -/
noncomputable def countBelow {B : Nat} (p : Fin B → Prop) : Nat → ℝ
  | 0 => 0
  | i + 1 => countBelow p i + (if h : i < B then if p ⟨i, h⟩ then 1 else 0 else 0)

theorem countBelow_all {B : Nat} (p : Fin B → Prop) : countBelow p B = (Finset.univ.filter p).card := by
  have : ∀ i, i ≤ B → countBelow p i = ((Finset.univ.filter fun j : Fin B => j.val < i ∧ p j).card : ℝ) := by
    intro i
    induction i with
    | zero => intro _; simp [countBelow]
    | succ i ih =>
      intro hi
      rw [countBelow, ih (by omega), dif_pos (by omega)]
      by_cases hp : p ⟨i, by omega⟩
      · rw [if_pos hp]
        have : (Finset.univ.filter fun j : Fin B => j.val < i + 1 ∧ p j) =
            insert ⟨i, by omega⟩ (Finset.univ.filter fun j : Fin B => j.val < i ∧ p j) := by
          ext j
          simp only [Finset.mem_filter, Finset.mem_univ, true_and, Finset.mem_insert]
          constructor
          · rintro ⟨h1, h2⟩
            by_cases h : j.val = i
            · left; exact Fin.ext h
            · right; exact ⟨by omega, h2⟩
          · rintro (h | ⟨h1, h2⟩)
            · subst h; exact ⟨by simp, hp⟩
            · exact ⟨by omega, h2⟩
        rw [this, Finset.card_insert_of_notMem (by simp)]
        push_cast; ring
      · rw [if_neg hp, add_zero]
        congr 2
        ext j
        simp only [Finset.mem_filter, Finset.mem_univ, true_and]
        constructor
        · rintro ⟨h1, h2⟩; exact ⟨by omega, h2⟩
        · rintro ⟨h1, h2⟩
          refine ⟨?_, h2⟩
          by_contra hc
          have : j.val = i := by omega
          subst this
          exact hp h2
  rw [this B le_rfl]
  congr 2
  ext j
  simp

theorem accLoop_spec {B n : Nat} (hn : 0 < n) (P : Fin B → Fin n → ℝ) (T : Fin B → ℝ) : ∀ (k i : Nat), i + k = B →
    accLoop (rowMajor P) (List.ofFn T) n (countBelow (fun i => Hit (P i) (T i)) i) i k =
      .ok (countBelow (fun i => Hit (P i) (T i)) B)
  | 0, i, h => by
    have : i = B := by omega
    subst this; rfl
  | k + 1, i, h => by
    have hi : i < B := by omega
    obtain ⟨c, e, hc⟩ := argmax_spec (P ⟨i, hi⟩) hn
    have hrow := row_rowMajor P ⟨i, hi⟩
    simp only at hrow
    rw [accLoop, hrow, e, Out.bind_ok, Out.idx_of_lt (by simpa using hi), Out.bind_ok]
    have hiff : ((c.val : ℝ) = (List.ofFn T)[i]'(by simpa using hi)) ↔ Hit (P ⟨i, hi⟩) (T ⟨i, hi⟩) := by
      rw [List.getElem_ofFn]
      constructor
      · intro h; exact ⟨c, hc, h⟩
      · rintro ⟨c', hc', h'⟩; rw [firstMax_unique hc hc']; exact h'
    have hstep : (countBelow (fun i => Hit (P i) (T i)) i +
        if ((c.val : ℝ) = (List.ofFn T)[i]'(by simpa using hi)) then 1 else 0) =
        countBelow (fun i => Hit (P i) (T i)) (i + 1) := by
      rw [countBelow, dif_pos hi]
      congr 1
      exact if_congr hiff rfl rfl
    have := accLoop_spec hn P T k (i + 1) (by omega)
    rw [← hstep] at this
    exact this

/-- Same predicted class. -/
def SameClass {n : Nat} (r s : Fin n → ℝ) : Prop := ∃ k, FirstMax r k ∧ FirstMax s k

theorem accOneHotLoop_spec {B n : Nat} (hn : 0 < n) (P Y : Fin B → Fin n → ℝ) : ∀ (k i : Nat), i + k = B →
    accOneHotLoop (rowMajor P) (rowMajor Y) n (countBelow (fun i => SameClass (P i) (Y i)) i) i k =
      .ok (countBelow (fun i => SameClass (P i) (Y i)) B)
  | 0, i, h => by
    have : i = B := by omega
    subst this; rfl
  | k + 1, i, h => by
    have hi : i < B := by omega
    obtain ⟨c, e, hc⟩ := argmax_spec (P ⟨i, hi⟩) hn
    obtain ⟨d, e', hd⟩ := argmax_spec (Y ⟨i, hi⟩) hn
    have hrow := row_rowMajor P ⟨i, hi⟩
    have hrow' := row_rowMajor Y ⟨i, hi⟩
    simp only at hrow hrow'
    rw [accOneHotLoop, hrow, hrow', e, Out.bind_ok, e', Out.bind_ok]
    have hiff : (c.val = d.val) ↔ SameClass (P ⟨i, hi⟩) (Y ⟨i, hi⟩) := by
      constructor
      · intro h; exact ⟨c, hc, by rw [Fin.ext h]; exact hd⟩
      · rintro ⟨k, h1, h2⟩; rw [firstMax_unique hc h1, firstMax_unique hd h2]
    have hstep : (countBelow (fun i => SameClass (P i) (Y i)) i + if c.val = d.val then 1 else 0) =
        countBelow (fun i => SameClass (P i) (Y i)) (i + 1) := by
      rw [countBelow, dif_pos hi]
      congr 1
      exact if_congr hiff rfl rfl
    have := accOneHotLoop_spec hn P Y k (i + 1) (by omega)
    rw [← hstep] at this
    convert this using 3

end

end DW.MetricL

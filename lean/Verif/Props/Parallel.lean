import Verif.Lemmas.ParallelConv
import Verif.Props.Elementwise
import Verif.Model.Floats
/-!
# Parallel loops (C43)

`deal` is how the runtime deals the iterations out to threads: one list per thread, together a permutation of
`0, …, N-1`. `Steps n (start m body deal) c` is an execution with `n` accesses, interleaved in any way.
-/

set_option autoImplicit false

namespace DW.Props.ParallelP

open DW.Spec DW.MatL DW.FlatL DW.EigL DW.NormL DW.LayoutL DW.Im2colL DW.ConvL DW.Par DW.ParL

noncomputable section

/-! ## Any loop with disjoint footprints -/

section general

variable {A V : Type} [DecidableEq A] {N : Nat} {body : Nat → Prog A V} {R W : Nat → Set A} {deal : List (List Nat)}

/-- Iterations that do not write what others access give the sequential result under every schedule. -/
theorem schedules_agree (hw : ∀ i < N, Within (R i) (W i) (body i)) (hap : Apart R W (List.range N))
    (hd : deal.flatten.Perm (List.range N)) {m : A → V} {n : Nat} {c : Config A deal.length V}
    (h : Steps n (start m body deal) c) (hf : c.Finished) : c.mem = run (seq ((List.range N).map body)) m :=
  (loop_merged hd hw hap h hf).unique
    (seq_merged List.nodup_range (fun i hi => hw i (List.mem_range.mp hi)) hap m) fun _ => Iff.rfl

/-- The next access of a program. -/
def next : Prog A V → Option (A × Bool)
  | .done => none
  | .read a _ => some (a, false)
  | .write a _ _ => some (a, true)

/-- No schedule reaches a data race: two threads about to access the same element, one of them writing. -/
theorem race_free (hw : ∀ i < N, Within (R i) (W i) (body i)) (hap : Apart R W (List.range N))
    (hd : deal.flatten.Perm (List.range N)) {m : A → V} {n : Nat} {c : Config A deal.length V}
    (h : Steps n (start m body deal) c) {s t : Fin deal.length} (hst : s ≠ t) {a : A} {w : Bool}
    (h1 : next (c.thread s) = some (a, true)) (h2 : next (c.thread t) = some (a, w)) : False := by
  have hinv := Inv.steps (threads_apart hd hap) (threads_within hd hw) h
  have hs := hinv.within s
  have ht := hinv.within t
  rcases hcs : c.thread s with _ | _ | ⟨a', v, k⟩ <;> rw [hcs] at h1 hs <;> simp [next] at h1
  subst h1
  have := threads_apart hd hap s t hst a' hs.1
  rcases hct : c.thread t with _ | ⟨a'', k⟩ | ⟨a'', v, k⟩ <;> rw [hct] at h2 ht <;> simp [next] at h2
  · obtain ⟨rfl, -⟩ := h2
    exact this.1 ht.1
  · obtain ⟨rfl, -⟩ := h2
    exact this.2 ht.1

/-- Every schedule comes to an end: all executions have the same total number of accesses, and one that has
performed fewer can go on. -/
theorem schedules_finish (hw : ∀ i < N, Within (R i) (W i) (body i)) (hap : Apart R W (List.range N))
    (hd : deal.flatten.Perm (List.range N)) (m : A → V) :
    ∃ total, ∀ n c, Steps n (start m body deal) c → n ≤ total ∧ (c.Finished ↔ n = total) ∧ (n < total → ∃ d, Step c d) := by
  refine ⟨∑ t : Fin deal.length, len (seq (deal[t].map body)) m, fun n c h => ?_⟩
  have hinv := Inv.steps (threads_apart hd hap) (threads_within hd hw) h
  have hc : n + ∑ t, len (c.thread t) c.mem = ∑ t : Fin deal.length, len (seq (deal[t].map body)) m := hinv.count
  have hz : ∀ (p : Prog A V) (μ : A → V), len p μ = 0 ↔ p = .done := fun p μ => by
    cases p <;> simp [len]
  have hfin : c.Finished ↔ ∑ t, len (c.thread t) c.mem = 0 := by
    rw [Finset.sum_eq_zero_iff]
    exact ⟨fun hf t _ => (hz _ _).2 (hf t), fun hf t => (hz _ _).1 (hf t (Finset.mem_univ t))⟩
  refine ⟨by omega, by rw [hfin]; omega, fun hlt => ?_⟩
  have : ¬ c.Finished := by rw [hfin]; omega
  obtain ⟨t, ht⟩ := not_forall.mp this
  rcases hct : c.thread t with _ | ⟨a, k⟩ | ⟨a, v, k⟩
  · exact absurd hct ht
  · exact ⟨_, .read c t a k hct⟩
  · exact ⟨_, .write c t a v k hct⟩

end general

/-! ## Convolution -/

section conv

variable {N C O : Nat} {a b : Axis}

/-- What iteration `n` reads and writes lies inside the tensors, and it is what the code of the iteration accesses. -/
theorem convolution_footprint {V : Type} [Zero V] [Add V] [Mul V] (da : a.dil = 1) (db : b.dil = 1) {n : Nat} (hn : n < N) :
    Within (convReads (C * (a.size * b.size)) (C * a.kernel * b.kernel) (a.out * b.out) O n)
      (convWrites (C * a.kernel * b.kernel) (a.out * b.out) O n)
      (convBody (V := V) (convAddrs C a b) (C * (a.size * b.size)) (C * a.kernel * b.kernel) (a.out * b.out) O n) ∧
    ∀ x ∈ convReads (C * (a.size * b.size)) (C * a.kernel * b.kernel) (a.out * b.out) O n,
      x.2 < [N * (C * (a.size * b.size)), O * (C * a.kernel * b.kernel), O, N * (O * (a.out * b.out)),
        N * (C * a.kernel * b.kernel * (a.out * b.out))].getD x.1 0 := by
  refine ⟨convBody_within (by rw [convAddrs_eq da db, rowMajor_length]) (convAddrs_lt da db) n, ?_⟩
  rintro ⟨t, i⟩ (⟨h1, h2, h3⟩ | ⟨h1, h2⟩ | ⟨h1, h2⟩ | ⟨h1, h2, h3⟩ | ⟨h1, h2, h3⟩) <;> simp only at h1 h2 <;> subst h1
  · exact lt_of_lt_of_le h3 (block_end hn)
  · exact h2
  · exact h2
  · exact lt_of_lt_of_le h3 (block_end hn)
  · exact lt_of_lt_of_le h3 (block_end hn)

/-- **C43**, convolution: under every schedule the column buffer and the output end up as after the sequential
loop, and nothing else changes. -/
theorem convolution_any_schedule (ha : a.Valid) (hb : b.Valid) (da : a.dil = 1) (db : b.dil = 1) {deal : List (List Nat)}
    (hd : deal.flatten.Perm (List.range N)) (m : Nat × Nat → ℝ) {n : Nat} {c : Config (Nat × Nat) deal.length}
    (h : Steps n (start m (convBody (convAddrs C a b) (C * (a.size * b.size)) (C * a.kernel * b.kernel) (a.out * b.out) O)
      deal) c) (hf : c.Finished) :
    convForward ⟨[N, C, a.size, b.size], tensor m 0 (N * (C * (a.size * b.size)))⟩
        ⟨[O, C, a.kernel, b.kernel], tensor m 1 (O * (C * (a.kernel * b.kernel)))⟩ ⟨[O], tensor m 2 O⟩
        ⟨[N, O, a.out, b.out], tensor m 3 (N * (O * (a.out * b.out)))⟩
        (tensor m 4 (N * (C * a.kernel * b.kernel * (a.out * b.out)))) (geo a b) =
      .ok (tensor c.mem 4 (N * (C * a.kernel * b.kernel * (a.out * b.out))), tensor c.mem 3 (N * (O * (a.out * b.out)))) ∧
    ∀ t i, t ≠ 3 → t ≠ 4 → c.mem (t, i) = m (t, i) := by
  have hl : (convAddrs C a b).length = C * a.kernel * b.kernel * (a.out * b.out) := by rw [convAddrs_eq da db, rowMajor_length]
  have hmer := loop_merged hd (fun i _ => convBody_within hl (convAddrs_lt da db) i)
    (conv_apart _ _ _ _ _) h hf
  obtain ⟨X, hX⟩ := exists_flat4 (tensor m 0 (N * (C * (a.size * b.size)))) (tensor_length _ _ _)
  obtain ⟨W, hW⟩ := exists_flat4 (tensor m 1 (O * (C * (a.kernel * b.kernel)))) (tensor_length _ _ _)
  have hbias : tensor m 2 O = List.ofFn fun o : Fin O => m (2, o.val) := range_map _
  constructor
  · rw [hX, hW, hbias, convForward_eq ha hb da db X W _ _ _ (tensor_length _ _ _) (tensor_length _ _ _)]
    congr 2
    · refine (eq_rowMajor (tensor_length _ _ _) fun n t => ?_).symm
      rw [tensor_getElem? _ _ _ _ (index_lt n t)]
      congr 1
      rw [hmer.own n.val (List.mem_range.mpr n.is_lt) _ (.inl ⟨rfl, by simp only; omega, by
        simp only; rw [Nat.add_mul, Nat.one_mul]; have := t.is_lt; omega⟩)]
      rw [(convBody_run hl n.val m).1 t.val t.is_lt]
      obtain ⟨p, o, rfl⟩ := exists_pair t
      rw [pair_val, fetched_col da db X m hX, pair_divNat, pair_modNat]
    · refine (eq_flat4 (tensor_length _ _ _) fun n o r q => ?_).symm
      rw [tensor_getElem? _ _ _ _ (Fin.is_lt _)]
      congr 1
      have he := (pair o (pair r q)).is_lt
      rw [pair_val, hmer.own n.val (List.mem_range.mpr n.is_lt) _ (.inr ⟨rfl, by simp only; omega, by
        simp only; rw [Nat.add_mul, Nat.one_mul]; omega⟩)]
      rw [(convBody_run hl n.val m).2 _ he, ← conv_sum X W _ n o r q, pair_val, index_div, index_mod]
      congr 1
      refine Finset.sum_congr rfl fun p _ => ?_
      rw [fetched_col da db X m hX]
      congr 1
      have hlt : o.val * (C * a.kernel * b.kernel) + p.val < O * (C * (a.kernel * b.kernel)) :=
        lt_of_lt_of_eq (index_lt o p) (by ring)
      have h1 := tensor_getElem? m 1 _ _ hlt
      rw [hW, flat4_cols, rowMajor_getElem?] at h1
      exact (Option.some.inj h1).symm
  · intro t i h3 h4
    refine hmer.rest _ fun j _ hj => ?_
    rcases hj with ⟨h, _⟩ | ⟨h, _⟩
    · exact h4 h
    · exact h3 h

/-! ## The gradient with respect to the input -/

/-- **C43**, input gradient: under every schedule the input gradient ends up as after the sequential loop; output
gradient and weights do not change. -/
theorem convolution_grad_any_schedule (ha : a.Valid) (hb : b.Valid) (da : a.dil = 1) (db : b.dil = 1)
    {deal : List (List Nat)} (hd : deal.flatten.Perm (List.range N)) (m : Nat × Nat → ℝ) (junk : Nat → ℝ) {n : Nat}
    {c : Config (Nat × Nat) deal.length}
    (hfit : CountFits [(C : Int) * a.kernel * b.kernel, (a.out : Int) * b.out])
    (h : Steps n (start m (convGradBody (col2imWrites C a.size b.size (geo a b) 1 1 a.out b.out) (C * (a.size * b.size))
      (C * a.kernel * b.kernel) (a.out * b.out) O) deal) c) (hf : c.Finished) :
    convInputGrad junk ⟨[N, O, a.out, b.out], tensor m 0 (N * (O * (a.out * b.out)))⟩
        ⟨[O, C, a.kernel, b.kernel], tensor m 1 (O * (C * (a.kernel * b.kernel)))⟩
        ⟨[N, C, a.size, b.size], tensor m 2 (N * (C * (a.size * b.size)))⟩ (geo a b) =
      .ok (tensor c.mem 2 (N * (C * (a.size * b.size)))) ∧
    ∀ t i, t < 2 → c.mem (t, i) = m (t, i) := by
  have hwr : col2imWrites C a.size b.size (geo a b) 1 1 a.out b.out = convAddrs C a b := by
    have h1 := writes_eq C a b
    have h2 := reads_eq C a b
    rw [da, db] at h1 h2
    exact h1.trans h2.symm
  rw [hwr] at h
  have hl : (convAddrs C a b).length = C * a.kernel * b.kernel * (a.out * b.out) := by rw [convAddrs_eq da db, rowMajor_length]
  have hmer := loop_merged hd (fun i _ => gradBody_within hl (convAddrs_lt da db) i) (grad_apart _ _ _ _ _) h hf
  obtain ⟨G, hG⟩ := exists_flat4 (tensor m 0 (N * (O * (a.out * b.out)))) (tensor_length _ _ _)
  obtain ⟨W, hW⟩ := exists_flat4 (tensor m 1 (O * (C * (a.kernel * b.kernel)))) (tensor_length _ _ _)
  obtain ⟨A, hA⟩ := exists_flat4 (tensor m 2 (N * (C * (a.size * b.size)))) (tensor_length _ _ _)
  constructor
  · rw [hG, hW, hA, convInputGrad_eq junk ha hb da db W G A hfit]
    congr 1
    refine (eq_flat4 (tensor_length _ _ _) fun n ch y x => ?_).symm
    rw [tensor_getElem? _ _ _ _ (Fin.is_lt _)]
    congr 1
    have he := (pair ch (pair y x)).is_lt
    rw [pair_val, hmer.own n.val (List.mem_range.mpr n.is_lt) _ (.inr ⟨rfl, by simp only; omega, by
      simp only; rw [Nat.add_mul, Nat.one_mul]; omega⟩)]
    rw [gradBody_run hl]
    have hAv : m (2, n.val * (C * (a.size * b.size)) + (pair ch (pair y x)).val) = A n ch y x := by
      have h1 := tensor_getElem? m 2 _ _ (index_lt n (pair ch (pair y x)))
      rw [hA] at h1
      have h2 := flat4_getElem? A n ch y x
      rw [pair_val, h1] at h2
      exact Option.some.inj h2
    rw [hAv]
    congr 1
    rw [sum_pair]
    unfold convGradIn gathered
    rw [sum_pair, sum_pair]
    rw [Finset.sum_eq_single ch]
    · refine Finset.sum_congr rfl fun kh _ => Finset.sum_congr rfl fun kw _ => ?_
      rw [sum_pair]
      refine Finset.sum_congr rfl fun r _ => Finset.sum_congr rfl fun q _ => ?_
      rw [List.getD_eq_getElem?_getD, convAddrs_eq da db, pair_val (pair (pair ch kh) kw), rowMajor_getElem?, Option.getD_some]
      simp only [pair_divNat, pair_modNat, addr_eq_some, true_and, index_div, index_mod]
      by_cases hp : a.pos r kh = y.val ∧ b.pos q kw = x.val
      · rw [if_pos hp, if_pos hp]
        refine Finset.sum_congr rfl fun o _ => ?_
        congr 1
        · have hlt : o.val * (C * a.kernel * b.kernel) + (pair (pair ch kh) kw).val < O * (C * (a.kernel * b.kernel)) :=
            lt_of_lt_of_eq (index_lt o _) (by ring)
          have h1 := tensor_getElem? m 1 _ _ hlt
          rw [hW, flat4_cols, rowMajor_getElem?] at h1
          simpa using (Option.some.inj h1).symm
        · have h1 := tensor_getElem? m 0 _ _ (index_lt n (pair o (pair r q)))
          rw [hG] at h1
          have h2 := flat4_getElem? G n o r q
          rw [pair_val, h1] at h2
          exact Option.some.inj h2
      · rw [if_neg hp, if_neg hp]
    · intro ch' _ hne
      refine Finset.sum_eq_zero fun kh _ => Finset.sum_eq_zero fun kw _ => ?_
      rw [sum_pair]
      refine Finset.sum_eq_zero fun r _ => Finset.sum_eq_zero fun q _ => ?_
      rw [List.getD_eq_getElem?_getD, convAddrs_eq da db, pair_val (pair (pair ch' kh) kw), rowMajor_getElem?, Option.getD_some]
      simp only [pair_divNat, pair_modNat, addr_eq_some]
      rw [if_neg fun h => hne h.1]
    · exact fun h => absurd (Finset.mem_univ ch) h
  · intro t i ht
    refine hmer.rest _ fun j _ hj => ?_
    rcases hj with ⟨h, _⟩ | ⟨h, _⟩ <;> simp only at h <;> omega

end conv

/-! ## Add -/

/-- **C43**, `Add`: under every schedule all gradient tensors end up as after the sequential loop, also when both
inputs are the same placeholder. `tbl` are the gradient tensors; `go` is another tensor. -/
theorem add_any_schedule {N go gi0 gi1 : Nat} (h0 : go ≠ gi0) (s : Shape) (tbl : List Buf)
    (hg0 : ∃ b, tbl[gi0]? = some b ∧ b.vals.length = N) (hg1 : ∃ b, tbl[gi1]? = some b ∧ b.vals.length = N)
    {deal : List (List Nat)} (hd : deal.flatten.Perm (List.range N)) (m : Nat × Nat → ℝ)
    (hm : ∀ h b, tbl[h]? = some b → b.vals = tensor m h b.vals.length) {n : Nat} {c : Config (Nat × Nat) deal.length}
    (h : Steps n (start m (addBody go gi0 gi1) deal) c) (hf : c.Finished) :
    ∃ r, addBackward [⟨s, tensor m go N⟩] [gi0, gi1] tbl = .ok r ∧ r.length = tbl.length ∧
      ∀ h b, r[h]? = some b → b.vals = tensor c.mem h b.vals.length := by
  have hmer := loop_merged hd (fun i _ => addBody_within go gi0 gi1 i) (add_apart go gi0 gi1 _) h hf
  obtain ⟨r, hr, hlen, hadd⟩ := ElementwiseP.add_backward s (fun i : Fin N => m (go, i.val)) gi0 gi1 tbl hg0 hg1
  refine ⟨r, by rw [tensor, range_map]; exact hr, hlen, fun t b hb => ?_⟩
  have ht : t < tbl.length := by rw [← hlen]; exact (List.getElem?_eq_some_iff.mp hb).1
  obtain ⟨b', hb', -, hbl, hv⟩ := hadd t _ (List.getElem?_eq_getElem ht)
  rw [hb] at hb'
  cases hb'
  have hm' := hm t _ (List.getElem?_eq_getElem ht)
  refine List.ext_getElem? fun k => ?_
  by_cases hk : k < b.vals.length
  · rw [tensor_getElem? _ _ _ _ hk, hv k (m (t, k)) (by rw [hm', tensor_getElem? _ _ _ _ (by omega)])]
    congr 1
    beta_reduce
    by_cases hkN : k < N
    · rw [dif_pos hkN]
      by_cases htg : t = gi0 ∨ t = gi1
      · rw [hmer.own k (List.mem_range.mpr hkN) _ ⟨htg, rfl⟩, addBody_run h0]
        rfl
      · rw [hmer.rest _ fun j _ hj => htg hj.1]
        rw [ElementwiseP.uses, if_neg fun h => htg (.inl h), if_neg fun h => htg (.inr h)]
        ring
    · rw [dif_neg hkN, mul_zero, add_zero, hmer.rest _ fun j hj hjk => ?_]
      have := List.mem_range.mp hj
      have : k = j := hjk.2
      omega
  · rw [List.getElem?_eq_none (by omega), List.getElem?_eq_none (by rw [tensor_length]; omega)]

/-! ## With any arithmetic

The values need not be real numbers: nothing is assumed about zero, addition and multiplication. With those of `float`, which are not
associative, the results are the same bits. -/

section arithmetic

variable {V : Type} [Zero V] [Add V] [Mul V] {N C O : Nat} {a b : Axis} {deal : List (List Nat)}

/-- **C43**, convolution: every schedule leaves the memory of the sequential loop. -/
theorem convolution_any_arithmetic (da : a.dil = 1) (db : b.dil = 1) (hd : deal.flatten.Perm (List.range N)) (m : Nat × Nat → V)
    {n : Nat} {c : Config (Nat × Nat) deal.length V}
    (h : Steps n (start m (convBody (convAddrs C a b) (C * (a.size * b.size)) (C * a.kernel * b.kernel) (a.out * b.out) O)
      deal) c) (hf : c.Finished) :
    c.mem = run (seq ((List.range N).map
      (convBody (convAddrs C a b) (C * (a.size * b.size)) (C * a.kernel * b.kernel) (a.out * b.out) O))) m :=
  schedules_agree (fun i _ => convBody_within (by rw [convAddrs_eq da db, rowMajor_length]) (convAddrs_lt da db) i)
    (conv_apart _ _ _ _ _) hd h hf

/-- **C43**, input gradient. -/
theorem convolution_grad_any_arithmetic (da : a.dil = 1) (db : b.dil = 1) (hd : deal.flatten.Perm (List.range N))
    (m : Nat × Nat → V) {n : Nat} {c : Config (Nat × Nat) deal.length V}
    (h : Steps n (start m (convGradBody (col2imWrites C a.size b.size (geo a b) 1 1 a.out b.out) (C * (a.size * b.size))
      (C * a.kernel * b.kernel) (a.out * b.out) O) deal) c) (hf : c.Finished) :
    c.mem = run (seq ((List.range N).map (convGradBody (col2imWrites C a.size b.size (geo a b) 1 1 a.out b.out)
      (C * (a.size * b.size)) (C * a.kernel * b.kernel) (a.out * b.out) O))) m := by
  have hwr : col2imWrites C a.size b.size (geo a b) 1 1 a.out b.out = convAddrs C a b := by
    have h1 := writes_eq C a b
    have h2 := reads_eq C a b
    rw [da, db] at h1 h2
    exact h1.trans h2.symm
  rw [hwr] at h ⊢
  exact schedules_agree (fun i _ => gradBody_within (by rw [convAddrs_eq da db, rowMajor_length]) (convAddrs_lt da db) i)
    (grad_apart _ _ _ _ _) hd h hf

/-- **C43**, `Add`. -/
theorem add_any_arithmetic {go gi0 gi1 : Nat} (hd : deal.flatten.Perm (List.range N)) (m : Nat × Nat → V) {n : Nat}
    {c : Config (Nat × Nat) deal.length V} (h : Steps n (start m (addBody go gi0 gi1) deal) c) (hf : c.Finished) :
    c.mem = run (seq ((List.range N).map (addBody go gi0 gi1))) m :=
  schedules_agree (fun i _ => addBody_within go gi0 gi1 i) (add_apart go gi0 gi1 _) hd h hf

/-- `float` with any rounding. -/
example (R : DW.Float.Rounding) (da : a.dil = 1) (db : b.dil = 1) (hd : deal.flatten.Perm (List.range N))
    (m : Nat × Nat → DW.Float.Flt) {n : Nat} {c : Config (Nat × Nat) deal.length DW.Float.Flt} :
    letI : Add DW.Float.Flt := ⟨DW.Float.add R⟩
    letI : Mul DW.Float.Flt := ⟨DW.Float.mul R⟩
    let body := convBody (V := DW.Float.Flt) (convAddrs C a b) (C * (a.size * b.size)) (C * a.kernel * b.kernel) (a.out * b.out) O
    Steps n (start m body deal) c → c.Finished → c.mem = run (seq ((List.range N).map body)) m :=
  letI : Add DW.Float.Flt := ⟨DW.Float.add R⟩
  letI : Mul DW.Float.Flt := ⟨DW.Float.mul R⟩
  fun h hf => convolution_any_arithmetic da db hd m h hf

end arithmetic

/-! ## Examples -/

/-- Two threads, `Add` of a tensor with itself; thread 0 runs iterations 2 and 0. -/
example : ([[2, 0], [1]] : List (List Nat)).flatten.Perm (List.range 3) := by decide

/-- Executions that finish exist, for every way of dealing out the iterations. -/
example (deal : List (List Nat)) (hd : deal.flatten.Perm (List.range 3)) (m : Nat × Nat → ℝ) :
    ∃ n c, Steps n (start m (addBody 0 1 1) deal) c ∧ c.Finished := by
  obtain ⟨total, h⟩ := schedules_finish (fun i _ => addBody_within 0 1 1 i) (add_apart 0 1 1 _) hd m
  have : ∀ k ≤ total, ∃ c, Steps k (start m (addBody 0 1 1) deal) c := fun k => by
    induction k with
    | zero => exact fun _ => ⟨_, .refl _⟩
    | succ k ih =>
      intro hk
      obtain ⟨c, hc⟩ := ih (by omega)
      obtain ⟨d, hd⟩ := (h k c hc).2.2 (by omega)
      exact ⟨d, .tail hc hd⟩
  obtain ⟨c, hc⟩ := this total (le_refl _)
  exact ⟨total, c, hc, (h _ c hc).2.1.2 rfl⟩

/-- The hypotheses matter: iterations that share an accumulator can lose an update. -/
def sharedBody : Nat → Prog Nat := fun _ => .read 0 fun v => .write 0 (v + 1) .done

theorem shared_accumulator_loses : ∃ n c, Steps n (start (fun _ => 0) sharedBody [[0], [1]]) c ∧ c.Finished ∧
    c.mem ≠ run (seq ((List.range 2).map sharedBody)) (fun _ => 0) := by
  let c0 := start (fun _ : Nat => (0 : ℝ)) sharedBody [[0], [1]]
  let c1 : Config Nat 2 := ⟨c0.mem, Function.update c0.thread 0 (.write 0 (0 + 1) .done)⟩
  let c2 : Config Nat 2 := ⟨c1.mem, Function.update c1.thread 1 (.write 0 (0 + 1) .done)⟩
  let c3 : Config Nat 2 := ⟨Function.update c2.mem 0 (0 + 1), Function.update c2.thread 0 .done⟩
  let c4 : Config Nat 2 := ⟨Function.update c3.mem 0 (0 + 1), Function.update c3.thread 1 .done⟩
  have s1 : Step c0 c1 := .read c0 0 0 (fun v => .write 0 (v + 1) .done) rfl
  have s2 : Step c1 c2 := .read c1 1 0 (fun v => .write 0 (v + 1) .done) rfl
  have s3 : Step c2 c3 := .write c2 0 0 (0 + 1) .done rfl
  have s4 : Step c3 c4 := .write c3 1 0 (0 + 1) .done rfl
  refine ⟨4, c4, .tail (.tail (.tail (.tail (.refl c0) s1) s2) s3) s4, fun t => ?_, fun h => ?_⟩
  · fin_cases t <;> rfl
  · have := congrFun h 0
    simp [c4, c3, sharedBody, seq, run, Prog.andThen, List.range_succ] at this

end

end DW.Props.ParallelP

import Verif.Lemmas.Conv
/-! Max pooling. -/

set_option autoImplicit false

namespace DW.PoolL

open DW.Spec DW.MatL DW.FlatL DW.EigL DW.NormL DW.Im2colL DW.ConvL

noncomputable section

/-- A loop with an invariant. -/
theorem loop_inv {σ : Type} {N : Nat} (f : σ → Nat → Out σ) (Inv : Nat → σ → Prop) (s : σ) (h0 : Inv 0 s)
    (h : ∀ (i : Fin N) (s : σ), Inv i.val s → ∃ s', f s i.val = .ok s' ∧ Inv (i.val + 1) s') :
    ∃ s', (List.range N).foldlM f s = .ok s' ∧ Inv N s' := by
  induction N with
  | zero => exact ⟨s, rfl, h0⟩
  | succ N ih =>
    obtain ⟨s1, h1, h2⟩ := ih fun i => h i.castSucc
    obtain ⟨s2, h3, h4⟩ := h (Fin.last N) s1 h2
    refine ⟨s2, ?_, h4⟩
    rw [List.range_succ, List.foldlM_append, h1, Out.bind_ok, List.foldlM_cons]
    simp only [Fin.val_last] at h3
    rw [h3]; rfl

variable {M : Nat} {a b : Axis}

/-- The matrix `im2col` builds from one plane. -/
def poolMat (a b : Axis) (X : Fin a.size → Fin b.size → ℝ) (fill : ℝ) (p : Fin (a.kernel * b.kernel))
    (o : Fin (a.out * b.out)) : ℝ :=
  window a b X fill p.divNat p.modNat o.divNat o.modNat

theorem flat3_one {α : Type} {m n : Nat} (X : Fin m → Fin n → α) : (flat3 fun (_ : Fin 1) => X) = rowMajor X := by
  refine eq_rowMajor (by rw [flat3_length]; ring) fun i j => ?_
  have := flat3_getElem? (fun (_ : Fin 1) => X) 0 i j
  rw [← this]
  simp

theorem flat4_one {α : Type} {l m n : Nat} (X : Fin l → Fin m → Fin n → α) :
    (flat4 fun (_ : Fin 1) => X) = rowMajor fun (p : Fin (l * m)) (o : Fin n) => X p.divNat p.modNat o := by
  refine eq_rowMajor (by rw [flat4_length]; ring) fun p o => ?_
  obtain ⟨i, j, rfl⟩ := exists_pair p
  have := flat4_getElem? (fun (_ : Fin 1) => X) 0 i j o
  simp only [pair_divNat, pair_modNat]
  rw [← this]
  congr 1
  simp only [pair_val, Fin.val_zero]; ring

theorem im2col_plane (ha : a.Valid) (hb : b.Valid) (da : a.dil = 1) (db : b.dil = 1)
    (X : Fin a.size → Fin b.size → ℝ) (fill : ℝ) (buf : List ℝ)
    (hl : buf.length = a.kernel * b.kernel * (a.out * b.out)) :
    im2col (rowMajor X) 1 a.size b.size buf (geo a b) 1 1 fill = .ok (rowMajor (poolMat a b X fill)) := by
  have h := im2col_eq (C := 1) ha hb (fun _ => X) [] fill buf (by rw [hl]; exact le_of_eq (by ring))
  rw [da, db, List.append_nil, List.drop_of_length_le (by rw [hl]; exact le_of_eq (by ring)), List.append_nil,
    flat3_one] at h
  refine h.trans ?_
  congr 1
  exact flat4_one (fun kh kw o => cols a b (fun (_ : Fin 1) => X) fill 0 kh kw o)

theorem col2im_plane (ha : a.Valid) (hb : b.Valid) (da : a.dil = 1) (db : b.dil = 1)
    (B : Fin (a.kernel * b.kernel) → Fin (a.out * b.out) → ℝ) (A : Fin a.size → Fin b.size → ℝ) :
    col2im (rowMajor B) (rowMajor A) 1 a.size b.size (geo a b) 1 1 =
      .ok (rowMajor fun y x => A y x + gathered a b (fun kh kw r q => B (pair kh kw) (pair r q)) y x) := by
  have h := col2im_eq (C := 1) ha hb (fun _ kh kw o => B (pair kh kw) o) [] (fun _ => A)
  rw [da, db, List.append_nil, flat3_one, flat4_one] at h
  simp only [pair_div_mod] at h
  refine h.trans ?_
  congr 1
  exact flat3_one (fun y x => A y x + gathered a b (fun kh kw r q => B (pair kh kw) (pair r q)) y x)

/-! ### Forward -/

theorem exists_row {pick : List ℝ → Nat} (hp : IsPick pick) {R Q : Nat} (hR : 0 < R) (P : Fin R → Fin Q → ℝ) :
    ∃ row : Fin Q → Fin R, (∀ o p, P p o ≤ P (row o) o) ∧
      ∀ o, pick (List.ofFn fun i => P i o) = (row o).val := by
  have : ∀ o, ∃ r : Fin R, (∀ p, P p o ≤ P r o) ∧ pick (List.ofFn fun i => P i o) = r.val := fun o => by
    obtain ⟨v, h1, h2⟩ := hp (List.ofFn fun i => P i o) (by
      intro h
      have := congrArg List.length h
      simp at this
      omega)
    obtain ⟨hlt, hv⟩ := List.getElem?_eq_some_iff.mp h1
    rw [List.length_ofFn] at hlt
    refine ⟨⟨_, hlt⟩, fun p => ?_, rfl⟩
    rw [List.getElem_ofFn] at hv
    rw [hv]
    exact h2 _ (by simp)
  choose row h1 h2 using this
  exact ⟨row, h1, h2⟩

theorem poolIter_eq {pick : List ℝ → Nat} (hp : IsPick pick) (ha : a.Valid) (hb : b.Valid) (da : a.dil = 1)
    (db : b.dil = 1) (hR : 0 < a.kernel * b.kernel) (X : Fin M → Fin a.size → Fin b.size → ℝ)
    (P I : Fin M → Fin (a.out * b.out) → ℝ) (buf : List ℝ) (hl : buf.length = a.kernel * b.kernel * (a.out * b.out))
    (i : Fin M) {rows cs : Int} (hr : rows = (a.kernel : Int) * b.kernel) (hc : cs = (a.out : Int) * b.out)
    (row : Fin (a.out * b.out) → Fin (a.kernel * b.kernel))
    (hrow : ∀ o, pick (List.ofFn fun p => poolMat a b (X i) floatMin p o) = (row o).val) :
    poolIter pick (flat3 X) (geo a b) a.size b.size rows cs i (rowMajor P, rowMajor I, buf) =
      .ok (rowMajor (Function.update P i fun o => poolMat a b (X i) floatMin (row o) o),
        rowMajor (Function.update I i fun o => ((row o).val : ℝ)), rowMajor (poolMat a b (X i) floatMin)) := by
  unfold poolIter
  have hsrc : block (flat3 X) ((i.val : Int) * ((a.size : Int) * b.size)) ((a.size : Int) * b.size) =
      .ok (rowMajor (X i)) :=
    block_row _ i (by push_cast; ring) (by push_cast; ring)
  have hmat : Eig.mat (rowMajor (poolMat a b (X i) floatMin)) rows cs =
      .ok ⟨a.kernel * b.kernel, a.out * b.out, poolMat a b (X i) floatMin⟩ := by
    have := mat_rowMajor (poolMat a b (X i) floatMin)
    push_cast at this
    rw [hr, hc]; exact this
  have h1 : block (rowMajor P) ((i.val : Int) * cs) cs = .ok (List.ofFn (P i)) :=
    block_row _ i (by rw [hc]; push_cast; ring) (by rw [hc]; push_cast; ring)
  have h2 : block (rowMajor I) ((i.val : Int) * cs) cs = .ok (List.ofFn (I i)) :=
    block_row _ i (by rw [hc]; push_cast; ring) (by rw [hc]; push_cast; ring)
  have hds : (List.range (a.out * b.out)).mapM (fun j => do
      let c ← colOf ⟨a.kernel * b.kernel, a.out * b.out, poolMat a b (X i) floatMin⟩ j
      match c[pick c]? with
      | none => .ub .oob
      | some v => .ok (v, ((pick c : Nat) : ℝ))) =
      .ok (List.ofFn fun o => (poolMat a b (X i) floatMin (row o) o, ((row o).val : ℝ))) := by
    have hrg : List.range (a.out * b.out) = List.ofFn fun o : Fin (a.out * b.out) => o.val := by
      apply List.ext_getElem <;> simp
    rw [hrg]
    refine mapM_ofFn _ _ _ fun o => ?_
    have hc : colOf ⟨a.kernel * b.kernel, a.out * b.out, poolMat a b (X i) floatMin⟩ o.val =
        .ok (List.ofFn fun p => poolMat a b (X i) floatMin p o) := by
      unfold colOf
      rw [dif_pos o.is_lt]
    rw [hc, Out.bind_ok, hrow o]
    simp
  rw [hsrc, Out.bind_ok]
  simp only
  rw [im2col_plane ha hb da db (X i) floatMin buf hl, Out.bind_ok, hmat, Out.bind_ok]
  refine (congrArg (fun o => o >>= _) hds).trans ?_
  rw [Out.bind_ok, h1, Out.bind_ok, h2, Out.bind_ok, List.map_ofFn, List.map_ofFn,
    putBlock_row P i _ (by rw [hc]; push_cast; ring), putBlock_row I i _ (by rw [hc]; push_cast; ring)]
  rfl

/-- What `poolForward` computes on `M` planes. -/
theorem poolLoop_eq {pick : List ℝ → Nat} (hp : IsPick pick) (ha : a.Valid) (hb : b.Valid) (da : a.dil = 1)
    (db : b.dil = 1) (hR : 0 < a.kernel * b.kernel) (X : Fin M → Fin a.size → Fin b.size → ℝ)
    (old idx buf : List ℝ) (ho : old.length = M * (a.out * b.out)) (hi : idx.length = M * (a.out * b.out))
    (hl : buf.length = a.kernel * b.kernel * (a.out * b.out)) {rows cs : Int}
    (hr : rows = (a.kernel : Int) * b.kernel) (hc : cs = (a.out : Int) * b.out) :
    ∃ (row : Fin M → Fin (a.out * b.out) → Fin (a.kernel * b.kernel)) (buf' : List ℝ),
      (∀ i o p, poolMat a b (X i) floatMin p o ≤ poolMat a b (X i) floatMin (row i o) o) ∧
      (∀ i o, pick (List.ofFn fun p => poolMat a b (X i) floatMin p o) = (row i o).val) ∧
      buf'.length = a.kernel * b.kernel * (a.out * b.out) ∧
      (List.range M).foldlM (fun s i => poolIter pick (flat3 X) (geo a b) a.size b.size rows cs i s) (old, idx, buf) =
        .ok (rowMajor fun i o => poolMat a b (X i) floatMin (row i o) o, rowMajor fun i o => ((row i o).val : ℝ), buf') := by
  have hrow : ∀ i, ∃ row : Fin (a.out * b.out) → Fin (a.kernel * b.kernel),
      (∀ o p, poolMat a b (X i) floatMin p o ≤ poolMat a b (X i) floatMin (row o) o) ∧
      ∀ o, pick (List.ofFn fun p => poolMat a b (X i) floatMin p o) = (row o).val := fun i => exists_row hp hR _
  choose row h1 h2 using hrow
  obtain ⟨P, rfl⟩ := exists_rowMajor old ho
  obtain ⟨I, rfl⟩ := exists_rowMajor idx hi
  let V : Fin M → Fin (a.out * b.out) → ℝ := fun i o => poolMat a b (X i) floatMin (row i o) o
  let J : Fin M → Fin (a.out * b.out) → ℝ := fun i o => ((row i o).val : ℝ)
  obtain ⟨s', hs, hv1, hv2, hv3⟩ := loop_inv (N := M)
    (fun s i => poolIter pick (flat3 X) (geo a b) a.size b.size rows cs i s)
    (fun k s => s.1 = rowMajor (upTo k V P) ∧ s.2.1 = rowMajor (upTo k J I) ∧
      s.2.2.length = a.kernel * b.kernel * (a.out * b.out)) (rowMajor P, rowMajor I, buf)
    ⟨by rw [upTo_zero], by rw [upTo_zero], hl⟩ (fun i s hs => by
      obtain ⟨s1, s2, s3⟩ := s
      obtain ⟨hs1, hs2, hs3⟩ := hs
      simp only at hs1 hs2 hs3
      subst hs1 hs2
      refine ⟨_, poolIter_eq hp ha hb da db hR X _ _ s3 hs3 i hr hc (row i) (h2 i), ?_, ?_, ?_⟩
      · simp only; rw [← upTo_update V P i]
      · simp only; rw [← upTo_update J I i]
      · simp)
  obtain ⟨s1, s2, s3⟩ := s'
  rw [upTo_all] at hv1 hv2
  simp only at hv1 hv2 hv3
  subst hv1 hv2
  exact ⟨row, s3, h1, h2, hv3, hs⟩

/-! ### Backward -/

theorem rowMajor_set {α : Type} {m n : Nat} (P : Fin m → Fin n → α) (i : Fin m) (j : Fin n) (v : α) :
    (rowMajor P).set (i.val * n + j.val) v = rowMajor fun i' j' => if i' = i ∧ j' = j then v else P i' j' := by
  refine eq_rowMajor (by simp) fun i' j' => ?_
  rw [List.getElem?_set]
  by_cases h : i' = i ∧ j' = j
  · obtain ⟨rfl, rfl⟩ := h
    rw [if_pos rfl, if_pos (by rw [rowMajor_length]; exact index_lt _ _), if_pos ⟨rfl, rfl⟩]
  · rw [if_neg h, if_neg, rowMajor_getElem?]
    intro he
    apply h
    have : pair i j = pair i' j' := Fin.ext he
    rw [pair_inj] at this
    exact ⟨this.1.symm, this.2.symm⟩

theorem toRow_nat (n : Nat) : toRow (n : ℝ) = n := by
  unfold toRow
  rw [if_pos (by positivity)]
  simp

theorem placeGrads_eq {R Q : Nat} (row : Fin Q → Fin R) (g : Fin Q → ℝ) {cs : Int} (hc : cs = (Q : Int)) (j : Nat)
    (hj : j ≤ Q) :
    placeGrads cs ((List.ofFn g).drop j) ((List.ofFn fun o => ((row o).val : ℝ)).drop j) j
        (rowMajor fun p o => if o.val < j ∧ p = row o then g o else 0) =
      .ok (rowMajor fun p o => if p = row o then g o else 0) := by
  subst hc
  induction hk : Q - j generalizing j with
  | zero =>
    have : j = Q := by omega
    subst this
    rw [List.drop_of_length_le (by simp), placeGrads]
    simp
  | succ k ih =>
    have hlt : j < Q := by omega
    have hd : ∀ f : Fin Q → ℝ, (List.ofFn f).drop j = f ⟨j, hlt⟩ :: (List.ofFn f).drop (j + 1) := fun f => by
      rw [List.drop_eq_getElem_cons (by simpa using hlt), List.getElem_ofFn]
    rw [hd, hd, placeGrads]
    have hrow : toRow ((row ⟨j, hlt⟩).val : ℝ) * (Q : Int) + (j : Int) = (((row ⟨j, hlt⟩).val * Q + j : Nat) : Int) := by
      rw [toRow_nat]; push_cast; ring
    rw [hrow, if_pos ⟨by omega, by
      rw [Int.toNat_natCast, rowMajor_length]; exact index_lt (row ⟨j, hlt⟩) ⟨j, hlt⟩⟩, Int.toNat_natCast]
    have hset := rowMajor_set (fun (p : Fin R) (o : Fin Q) => if o.val < j ∧ p = row o then g o else 0)
      (row ⟨j, hlt⟩) ⟨j, hlt⟩ (g ⟨j, hlt⟩)
    simp only at hset
    rw [hset]
    have := ih (j + 1) (by omega) (by omega)
    refine Eq.trans ?_ this
    congr 2
    funext p o
    by_cases ho : o = ⟨j, hlt⟩
    · subst ho
      by_cases hp : p = row ⟨j, hlt⟩ <;> simp [hp]
    · have hne : o.val ≠ j := fun h => ho (Fin.ext h)
      rw [if_neg fun h => ho h.2]
      by_cases h : o.val < j
      · simp [h, Nat.lt_succ_of_lt h]
      · have : ¬ o.val < j + 1 := by omega
        simp [h, this]

/-- Gathering the placed gradients. -/
theorem gathered_rows (row : Fin (a.out * b.out) → Fin (a.kernel * b.kernel)) (g : Fin (a.out * b.out) → ℝ)
    (y : Fin a.size) (x : Fin b.size) :
    gathered a b (fun kh kw r q => if pair kh kw = row (pair r q) then g (pair r q) else 0) y x =
      ∑ r : Fin a.out, ∑ q : Fin b.out,
        if a.pos r (row (pair r q)).divNat = y.val ∧ b.pos q (row (pair r q)).modNat = x.val then g (pair r q) else 0 := by
  unfold gathered
  have h1 : ∀ (F : Fin a.kernel → Fin b.kernel → Fin a.out → Fin b.out → ℝ),
      ∑ kh, ∑ kw, ∑ r, ∑ q, F kh kw r q = ∑ r, ∑ q, ∑ kh, ∑ kw, F kh kw r q := fun F => by
    have := Finset.sum_comm (s := Finset.univ) (t := Finset.univ)
      (f := fun (p : Fin a.kernel × Fin b.kernel) (q : Fin a.out × Fin b.out) => F p.1 p.2 q.1 q.2)
    simpa only [Fintype.sum_prod_type] using this
  rw [h1]
  refine Finset.sum_congr rfl fun r _ => Finset.sum_congr rfl fun q _ => ?_
  obtain ⟨kh, kw, hrow⟩ := exists_pair (row (pair r q))
  simp only [hrow, pair_inj, pair_divNat, pair_modNat]
  rw [Finset.sum_eq_single kh, Finset.sum_eq_single kw]
  · simp
  · intro kw' _ hne
    simp [hne]
  · exact fun h => absurd (Finset.mem_univ _) h
  · intro kh' _ hne
    refine Finset.sum_eq_zero fun kw' _ => ?_
    simp [hne]
  · exact fun h => absurd (Finset.mem_univ _) h

theorem poolGradLoop_eq (ha : a.Valid) (hb : b.Valid) (da : a.dil = 1) (db : b.dil = 1)
    (row : Fin M → Fin (a.out * b.out) → Fin (a.kernel * b.kernel)) (G : Fin M → Fin (a.out * b.out) → ℝ)
    (A : Fin M → Fin a.size → Fin b.size → ℝ) (buf : List ℝ) (hl : buf.length = a.kernel * b.kernel * (a.out * b.out))
    {cs : Int} (hc : cs = (a.out : Int) * b.out) :
    ∃ buf' : List ℝ, buf'.length = a.kernel * b.kernel * (a.out * b.out) ∧
      (List.range M).foldlM (fun s i => poolGradIter (rowMajor G) (rowMajor fun i o => ((row i o).val : ℝ)) (geo a b)
          a.size b.size cs i s) (buf, flat3 A) =
        .ok (buf', flat3 fun i y x => A i y x + ∑ r : Fin a.out, ∑ q : Fin b.out,
          if a.pos r (row i (pair r q)).divNat = y.val ∧ b.pos q (row i (pair r q)).modNat = x.val
          then G i (pair r q) else 0) := by
  let V : Fin M → Fin a.size → Fin b.size → ℝ := fun i y x => A i y x + ∑ r : Fin a.out, ∑ q : Fin b.out,
    if a.pos r (row i (pair r q)).divNat = y.val ∧ b.pos q (row i (pair r q)).modNat = x.val then G i (pair r q) else 0
  obtain ⟨s', hs, hv1, hv2⟩ := loop_inv (N := M)
    (fun s i => poolGradIter (rowMajor G) (rowMajor fun i o => ((row i o).val : ℝ)) (geo a b) a.size b.size cs i s)
    (fun k s => s.1.length = a.kernel * b.kernel * (a.out * b.out) ∧ s.2 = flat3 (upTo k V A)) (buf, flat3 A)
    ⟨hl, by rw [upTo_zero]⟩ (fun i s hs => by
      obtain ⟨s1, s2⟩ := s
      obtain ⟨hs1, hs2⟩ := hs
      simp only at hs1 hs2
      subst hs2
      have hg : block (rowMajor G) ((i.val : Int) * cs) cs = .ok (List.ofFn (G i)) :=
        block_row _ i (by rw [hc]; push_cast; ring) (by rw [hc]; push_cast; ring)
      have hi : block (rowMajor fun i o => ((row i o).val : ℝ)) ((i.val : Int) * cs) cs =
          .ok (List.ofFn fun o => ((row i o).val : ℝ)) :=
        block_row _ i (by rw [hc]; push_cast; ring) (by rw [hc]; push_cast; ring)
      have hz : List.replicate s1.length (0 : ℝ) =
          rowMajor fun (p : Fin (a.kernel * b.kernel)) (o : Fin (a.out * b.out)) =>
            if o.val < 0 ∧ p = row i o then G i o else 0 := by
        rw [hs1]
        simp only [Nat.not_lt_zero, false_and, if_false]
        unfold rowMajor
        rw [List.ofFn_const]
      have hpl := placeGrads_eq (row i) (G i) (cs := cs) (by rw [hc]; push_cast; rfl) 0 (Nat.zero_le _)
      rw [List.drop_zero, List.drop_zero, ← hz] at hpl
      have hA : block (flat3 (upTo i.val V A)) ((i.val : Int) * a.size * b.size) ((a.size : Int) * b.size) =
          .ok (rowMajor (A i)) := by
        refine (block_row _ i (by push_cast; ring) (by push_cast; ring)).trans ?_
        rw [upTo_self]; rfl
      refine ⟨(rowMajor fun p o => if p = row i o then G i o else 0, putBlock (flat3 (upTo i.val V A))
        ((i.val : Int) * a.size * b.size) (rowMajor fun y x => A i y x + gathered a b (fun kh kw r q =>
          if pair kh kw = row i (pair r q) then G i (pair r q) else 0) y x)), ?_, ?_, ?_⟩
      · unfold poolGradIter
        rw [hg, Out.bind_ok, hi, Out.bind_ok]
        simp only
        rw [hpl, Out.bind_ok, hA, Out.bind_ok, col2im_plane ha hb da db, Out.bind_ok]
      · simp
      · simp only
        refine (putBlock_row _ i _ (by push_cast; ring)).trans ?_
        rw [← upTo_update V A i]
        unfold flat3
        congr 1
        funext j q
        by_cases hj : j = i
        · subst hj
          simp only [Function.update_self, V]
          rw [gathered_rows]
        · simp [Function.update_of_ne hj])
  obtain ⟨s1, s2⟩ := s'
  simp only at hv1 hv2
  rw [upTo_all] at hv2
  subst hv2
  exact ⟨s1, hv1, hs⟩

end

end DW.PoolL

import Verif.Lemmas.Im2col
/-! Convolution. -/

set_option autoImplicit false

namespace DW.ConvL

open DW.Spec DW.MatL DW.FlatL DW.EigL DW.NormL DW.DerivL DW.Im2colL

/-! ### Blocks -/

section
variable {m n N : Nat}

theorem block_row (P : Fin m → Fin n → ℝ) (i : Fin m) {off k : Int} (ho : off = ((i.val * n : Nat) : Int))
    (hk : k = (n : Int)) : block (rowMajor P) off k = .ok (List.ofFn (P i)) := by
  subst ho hk
  have hlt : i.val * n + n ≤ m * n := by
    rw [← Nat.succ_mul]; exact Nat.mul_le_mul_right n i.is_lt
  unfold block
  rw [if_pos ⟨by omega, by omega, by simp only [Int.toNat_natCast, rowMajor_length]; exact hlt⟩]
  simp only [Int.toNat_natCast]
  congr 1
  refine List.ext_getElem? fun j => ?_
  by_cases hj : j < n
  · rw [List.getElem?_take_of_lt hj, List.getElem?_drop]
    have := rowMajor_getElem? P i ⟨j, hj⟩
    rw [this]
    simp [hj]
  · rw [List.getElem?_take_eq_none (by omega), List.getElem?_eq_none (by simp; omega)]

theorem putBlock_row (P : Fin m → Fin n → ℝ) (i : Fin m) (v : Fin n → ℝ) {off : Int}
    (ho : off = ((i.val * n : Nat) : Int)) :
    putBlock (rowMajor P) off (List.ofFn v) = rowMajor (Function.update P i v) := by
  subst ho
  have hlt : i.val * n + n ≤ m * n := by
    rw [← Nat.succ_mul]; exact Nat.mul_le_mul_right n i.is_lt
  unfold putBlock
  simp only [Int.toNat_natCast, List.length_ofFn]
  refine eq_rowMajor (by simp; omega) fun r c => ?_
  have hr : r.val * n + c.val < m * n := index_lt r c
  by_cases h : r = i
  · subst h
    rw [Function.update_self, List.append_assoc, List.getElem?_append_right (by simp),
      List.getElem?_append_left (by simp)]
    simp
  · rw [Function.update_of_ne h]
    have hne : r.val ≠ i.val := fun hh => h (Fin.ext hh)
    rcases Nat.lt_or_gt_of_ne hne with hlt' | hgt
    · have h2 : r.val * n + n ≤ i.val * n := by
        rw [← Nat.succ_mul]; exact Nat.mul_le_mul_right n hlt'
      have := c.is_lt
      rw [List.append_assoc, List.getElem?_append_left (by simp; omega), List.getElem?_take_of_lt (by omega),
        rowMajor_getElem?]
    · have h2 : i.val * n + n ≤ r.val * n := by
        rw [← Nat.succ_mul]; exact Nat.mul_le_mul_right n hgt
      rw [List.getElem?_append_right (by simp; omega), List.getElem?_drop]
      have : i.val * n + n + (r.val * n + c.val - (List.take (i.val * n) (rowMajor P) ++ List.ofFn v).length) =
          r.val * n + c.val := by
        simp; omega
      rw [this, rowMajor_getElem?]

/-- The first `k` rows are new. -/
def upTo {α : Type} (k : Nat) (V P : Fin m → α) (i : Fin m) : α := if i.val < k then V i else P i

theorem upTo_zero {α : Type} (V P : Fin m → α) : upTo 0 V P = P := by funext i; simp [upTo]
theorem upTo_all {α : Type} (V P : Fin m → α) : upTo m V P = V := by funext i; simp [upTo]

theorem upTo_update {α : Type} (V P : Fin m → α) (i : Fin m) :
    Function.update (upTo i.val V P) i (V i) = upTo (i.val + 1) V P := by
  funext j
  by_cases h : j = i
  · subst h; simp [upTo]
  · rw [Function.update_of_ne h]
    have : j.val ≠ i.val := fun hh => h (Fin.ext hh)
    unfold upTo
    by_cases h2 : j.val < i.val
    · rw [if_pos h2, if_pos (by omega)]
    · rw [if_neg h2, if_neg (by omega)]

theorem upTo_self {α : Type} (V P : Fin m → α) (i : Fin m) : upTo i.val V P i = P i := by simp [upTo]

/-- A loop whose states are known. -/
theorem loop_eq {σ : Type} (f : σ → Nat → Out σ) (st : Nat → σ) (h : ∀ i : Fin N, f (st i.val) i.val = .ok (st (i.val + 1))) :
    (List.range N).foldlM f (st 0) = .ok (st N) := by
  induction N with
  | zero => rfl
  | succ N ih =>
    rw [List.range_succ, List.foldlM_append, ih fun i => h i.castSucc, Out.bind_ok, List.foldlM_cons]
    have := h (Fin.last N)
    simp only [Fin.val_last] at this
    rw [this]; rfl

end

/-! ### Forward -/

variable {N C O : Nat} {a b : Axis}

theorem flat4_cols {α : Type} {k l m n : Nat} (X : Fin k → Fin l → Fin m → Fin n → α) :
    flat4 X = rowMajor fun (i : Fin k) (p : Fin (l * m * n)) => X i p.divNat.divNat p.divNat.modNat p.modNat := by
  refine eq_rowMajor (by rw [flat4_length]; ring) fun i p => ?_
  obtain ⟨q, s, rfl⟩ := exists_pair p
  obtain ⟨j, r, rfl⟩ := exists_pair q
  simp only [pair_divNat, pair_modNat]
  rw [← flat4_getElem? X i j r s]
  congr 1
  simp only [pair_val]; ring

noncomputable section

/-- The matrix `im2col` builds. -/
def colMat (a b : Axis) (X : Fin C → Fin a.size → Fin b.size → ℝ) (fill : ℝ) (p : Fin (C * a.kernel * b.kernel))
    (o : Fin (a.out * b.out)) : ℝ :=
  cols a b X fill p.divNat.divNat p.divNat.modNat p.modNat o

theorem im2col_mat (ha : a.Valid) (hb : b.Valid) (da : a.dil = 1) (db : b.dil = 1)
    (X : Fin C → Fin a.size → Fin b.size → ℝ) (fill : ℝ) (buf : List ℝ)
    (hl : buf.length = C * a.kernel * b.kernel * (a.out * b.out)) :
    im2col (flat3 X) C a.size b.size buf (geo a b) 1 1 fill = .ok (rowMajor (colMat a b X fill)) := by
  have h := im2col_eq ha hb X [] fill buf (by rw [hl]; exact le_of_eq (by ring))
  rw [da, db, List.append_nil, List.drop_of_length_le (by rw [hl]; exact le_of_eq (by ring)), List.append_nil,
    flat4_rows] at h
  exact h

/-- The column buffer after `convForward`. -/
def convCols (a b : Axis) (X : Fin N → Fin C → Fin a.size → Fin b.size → ℝ) : List ℝ :=
  rowMajor fun n (t : Fin (C * a.kernel * b.kernel * (a.out * b.out))) => colMat a b (X n) 0 t.divNat t.modNat

theorem convIter_eq (ha : a.Valid) (hb : b.Valid) (da : a.dil = 1) (db : b.dil = 1)
    (X : Fin N → Fin C → Fin a.size → Fin b.size → ℝ) (W : Fin O → Fin (C * a.kernel * b.kernel) → ℝ) (bias : Fin O → ℝ)
    (P : Fin N → Fin (C * a.kernel * b.kernel * (a.out * b.out)) → ℝ) (Q : Fin N → Fin (O * (a.out * b.out)) → ℝ)
    (n : Fin N) {rows cs : Int} (hr : rows = (C : Int) * a.kernel * b.kernel) (hc : cs = (a.out : Int) * b.out) :
    convIter (flat4 X) ⟨O, C * a.kernel * b.kernel, W⟩ ⟨O, bias⟩ (geo a b) C a.size b.size O rows cs n
        (rowMajor P, rowMajor Q) =
      .ok (rowMajor (Function.update P n fun t => colMat a b (X n) 0 t.divNat t.modNat),
        rowMajor (Function.update Q n fun t => (∑ p, W t.divNat p * colMat a b (X n) 0 p t.modNat) + bias t.divNat)) := by
  subst hr hc
  unfold convIter
  have hsrc : block (flat4 X) ((n.val : Int) * ((C : Int) * a.size * b.size)) ((C : Int) * a.size * b.size) =
      .ok (flat3 (X n)) :=
    block_row _ n (by push_cast; ring) (by push_cast; ring)
  have hcol := block_row P n (off := (n.val : Int) * ((C : Int) * a.kernel * b.kernel) * ((a.out : Int) * b.out))
    (k := (C : Int) * a.kernel * b.kernel * ((a.out : Int) * b.out)) (by push_cast; ring) (by push_cast; ring)
  have hout := block_row Q n (off := (n.val : Int) * ((O : Int) * ((a.out : Int) * b.out)))
    (k := (O : Int) * ((a.out : Int) * b.out)) (by push_cast; ring) (by push_cast; ring)
  rw [hsrc, Out.bind_ok, hcol, Out.bind_ok, im2col_mat ha hb da db (X n) 0 _ (by simp), Out.bind_ok]
  have hmat : Eig.mat (rowMajor (colMat a b (X n) 0)) ((C : Int) * a.kernel * b.kernel) ((a.out : Int) * b.out) =
      .ok ⟨C * a.kernel * b.kernel, a.out * b.out, colMat a b (X n) 0⟩ := by
    have := mat_rowMajor (colMat a b (X n) 0)
    push_cast at this
    exact this
  rw [hmat, Out.bind_ok, mul_mk, Out.bind_ok, colwise_mk, Out.bind_ok, hout, Out.bind_ok]
  have hset : ∀ (l : List ℝ) (R : Fin O → Fin (a.out * b.out) → ℝ), l.length = O * (a.out * b.out) →
      Eig.setMat l 0 O ((a.out : Int) * b.out) ⟨O, a.out * b.out, R⟩ = .ok (rowMajor R) := fun l R h => by
    have := setMat_zero l R h
    push_cast at this
    exact this
  rw [hset _ _ (by simp), Out.bind_ok]
  rw [rowMajor_eq_ofFn (colMat a b (X n) 0), putBlock_row P n _ (by push_cast; ring),
    rowMajor_eq_ofFn (fun i j => (∑ k, W i k * colMat a b (X n) 0 k j) + bias i), putBlock_row Q n _ (by push_cast; ring)]

theorem conv_sum (X : Fin N → Fin C → Fin a.size → Fin b.size → ℝ) (W : Fin O → Fin C → Fin a.kernel → Fin b.kernel → ℝ)
    (bias : Fin O → ℝ) (n : Fin N) (o : Fin O) (r : Fin a.out) (q : Fin b.out) :
    (∑ p : Fin (C * a.kernel * b.kernel), W o p.divNat.divNat p.divNat.modNat p.modNat * colMat a b (X n) 0 p (pair r q)) +
      bias o = conv a b X W bias n o r q := by
  unfold conv
  rw [add_comm, sum_pair, sum_pair]
  simp only [colMat, cols, window, pair_divNat, pair_modNat]

theorem dimN_zero {d : Nat} {s : Shape} {v : List ℝ} : dimN ⟨(d : Int) :: s, v⟩ 0 = .ok d := by
  simp [dimN, dim, Out.idx]

theorem convForward_eq (ha : a.Valid) (hb : b.Valid) (da : a.dil = 1) (db : b.dil = 1)
    (X : Fin N → Fin C → Fin a.size → Fin b.size → ℝ) (W : Fin O → Fin C → Fin a.kernel → Fin b.kernel → ℝ)
    (bias : Fin O → ℝ) (old buf : List ℝ) (ho : old.length = N * (O * (a.out * b.out)))
    (hbuf : buf.length = N * (C * a.kernel * b.kernel * (a.out * b.out))) :
    convForward ⟨[N, C, a.size, b.size], flat4 X⟩ ⟨[O, C, a.kernel, b.kernel], flat4 W⟩ ⟨[O], List.ofFn bias⟩
        ⟨[N, O, a.out, b.out], old⟩ buf (geo a b) =
      .ok (convCols a b X, flat4 (conv a b X W bias)) := by
  unfold convForward
  obtain ⟨P, rfl⟩ := exists_rowMajor buf hbuf
  obtain ⟨Q, rfl⟩ := exists_rowMajor old ho
  rw [dimN_zero]
  simp only [Out.bind_ok, dim, Out.idx, List.getElem?_cons_zero, List.getElem?_cons_succ]
  have hW : Eig.mat (flat4 W) O ((C : Int) * (geo a b).kh * (geo a b).kw) =
      .ok ⟨O, C * a.kernel * b.kernel, fun o p => W o p.divNat.divNat p.divNat.modNat p.modNat⟩ := by
    have := mat_rowMajor fun (i : Fin O) (p : Fin (C * a.kernel * b.kernel)) => W i p.divNat.divNat p.divNat.modNat p.modNat
    rw [← flat4_cols] at this
    push_cast at this
    exact this
  rw [hW, Out.bind_ok, vec_ofFn, Out.bind_ok]
  let V : Fin N → Fin (C * a.kernel * b.kernel * (a.out * b.out)) → ℝ :=
    fun n t => colMat a b (X n) 0 t.divNat t.modNat
  let U : Fin N → Fin (O * (a.out * b.out)) → ℝ := fun n t =>
    (∑ p, W t.divNat p.divNat.divNat p.divNat.modNat p.modNat * colMat a b (X n) 0 p t.modNat) + bias t.divNat
  have hl := loop_eq (N := N) (fun s i => convIter (flat4 X)
      ⟨O, C * a.kernel * b.kernel, fun o p => W o p.divNat.divNat p.divNat.modNat p.modNat⟩ ⟨O, bias⟩ (geo a b) C a.size
      b.size O ((C : Int) * (geo a b).kh * (geo a b).kw) ((a.out : Int) * b.out) i s)
    (fun k => (rowMajor (upTo k V P), rowMajor (upTo k U Q))) (fun i => by
      rw [convIter_eq ha hb da db X _ bias _ _ i (rows := (C : Int) * (geo a b).kh * (geo a b).kw) rfl rfl]
      rw [← upTo_update V P i, ← upTo_update U Q i])
  simp only [upTo_zero, upTo_all] at hl
  rw [hl]
  congr 2
  refine eq_flat4 (by simp) fun n o r q => ?_
  rw [pair_val, rowMajor_getElem?]
  simp only [U, pair_divNat, pair_modNat]
  rw [conv_sum]

/-! ### Gradients -/

/-- The gradient `convInputGrad` adds. -/
def convGradIn (a b : Axis) (W : Fin O → Fin C → Fin a.kernel → Fin b.kernel → ℝ)
    (G : Fin N → Fin O → Fin a.out → Fin b.out → ℝ) (n : Fin N) (c : Fin C) (y : Fin a.size) (x : Fin b.size) : ℝ :=
  gathered a b (fun kh kw r q => ∑ o, W o c kh kw * G n o r q) y x

theorem convGradIter_eq (junk : Nat → ℝ) (ha : a.Valid) (hb : b.Valid) (da : a.dil = 1) (db : b.dil = 1)
    (W : Fin O → Fin C → Fin a.kernel → Fin b.kernel → ℝ) (G : Fin N → Fin O → Fin a.out → Fin b.out → ℝ)
    (A : Fin N → Fin C → Fin a.size → Fin b.size → ℝ) (n : Fin N) {rows cs : Int}
    (hr : rows = (C : Int) * a.kernel * b.kernel) (hc : cs = (a.out : Int) * b.out) (hf : CountFits [rows, cs]) :
    convGradIter junk (flat4 G) (flat4 W) (geo a b) C a.size b.size O rows cs n (flat4 A) =
      .ok (flat4 (Function.update A n fun c y x => A n c y x + convGradIn a b W G n c y x)) := by
  unfold convGradIter
  have hW : Eig.mat (flat4 W) O rows =
      .ok ⟨O, C * a.kernel * b.kernel, fun o p => W o p.divNat.divNat p.divNat.modNat p.modNat⟩ := by
    have := mat_rowMajor fun (i : Fin O) (p : Fin (C * a.kernel * b.kernel)) => W i p.divNat.divNat p.divNat.modNat p.modNat
    rw [← flat4_cols] at this
    push_cast at this
    rw [hr]
    exact this
  have hfresh : freshBuf junk [rows, cs] =
      .ok ⟨[rows, cs], (List.range (C * a.kernel * b.kernel * (a.out * b.out))).map junk⟩ := by
    refine freshBuf_eq junk ?_ hf ?_
    · rw [hr, hc]
      intro d hd
      simp only [List.mem_cons, List.not_mem_nil, or_false] at hd
      rcases hd with rfl | rfl <;> positivity
    · rw [hr, hc]; simp [count]
  have hgo : block (flat4 G) ((n.val : Int) * ((O : Int) * cs)) ((O : Int) * cs) =
      .ok (rowMajor fun o (p : Fin (a.out * b.out)) => G n o p.divNat p.modNat) :=
    block_row _ n (by rw [hc]; push_cast; ring) (by rw [hc]; push_cast; ring)
  have hmat : Eig.mat (rowMajor fun o (p : Fin (a.out * b.out)) => G n o p.divNat p.modNat) O cs =
      .ok ⟨O, a.out * b.out, fun o p => G n o p.divNat p.modNat⟩ := by
    have := mat_rowMajor fun o (p : Fin (a.out * b.out)) => G n o p.divNat p.modNat
    push_cast at this
    rw [hc]
    exact this
  have hset : ∀ (l : List ℝ) (R : Fin (C * a.kernel * b.kernel) → Fin (a.out * b.out) → ℝ),
      l.length = C * a.kernel * b.kernel * (a.out * b.out) →
      Eig.setMat l 0 rows cs ⟨C * a.kernel * b.kernel, a.out * b.out, R⟩ = .ok (rowMajor R) := fun l R h => by
    have := setMat_zero l R h
    push_cast at this
    rw [hr, hc]
    exact this
  have hpl : block (flat4 A) ((n.val : Int) * C * a.size * b.size) ((C : Int) * a.size * b.size) = .ok (flat3 (A n)) :=
    block_row _ n (by push_cast; ring) (by push_cast; ring)
  rw [hW, Out.bind_ok, hfresh, Out.bind_ok, hgo, Out.bind_ok, hmat, Out.bind_ok, transpose_mk, mul_mk, Out.bind_ok,
    hset _ _ (by simp), Out.bind_ok, hpl, Out.bind_ok]
  have hrows := flat4_rows fun (c : Fin C) (kh : Fin a.kernel) (kw : Fin b.kernel) (p : Fin (a.out * b.out)) =>
    ∑ o, W o c kh kw * G n o p.divNat p.modNat
  rw [← hrows]
  have h := col2im_eq ha hb (fun (c : Fin C) (kh : Fin a.kernel) (kw : Fin b.kernel) (p : Fin (a.out * b.out)) =>
    ∑ o, W o c kh kw * G n o p.divNat p.modNat) [] (A n)
  rw [da, db, List.append_nil] at h
  refine (congrArg (fun t => t >>= fun plane => Out.ok (putBlock (flat4 A) ((n.val : Int) * C * a.size * b.size) plane)) h).trans ?_
  simp only [Out.bind_ok, pair_divNat, pair_modNat]
  congr 1
  refine (putBlock_row _ n _ (by push_cast; ring)).trans ?_
  unfold flat4
  congr 1
  funext i q
  by_cases hi : i = n
  · subst hi; simp [convGradIn]
  · simp [Function.update_of_ne hi]

theorem convInputGrad_eq (junk : Nat → ℝ) (ha : a.Valid) (hb : b.Valid) (da : a.dil = 1) (db : b.dil = 1)
    (W : Fin O → Fin C → Fin a.kernel → Fin b.kernel → ℝ) (G : Fin N → Fin O → Fin a.out → Fin b.out → ℝ)
    (A : Fin N → Fin C → Fin a.size → Fin b.size → ℝ)
    (hf : CountFits [(C : Int) * a.kernel * b.kernel, (a.out : Int) * b.out]) (wshape : Shape) (n0 : Int) :
    convInputGrad junk ⟨[N, O, a.out, b.out], flat4 G⟩ ⟨wshape, flat4 W⟩ ⟨[n0, C, a.size, b.size], flat4 A⟩ (geo a b) =
      .ok (flat4 fun n c y x => A n c y x + convGradIn a b W G n c y x) := by
  unfold convInputGrad
  rw [dimN_zero]
  simp only [Out.bind_ok, dim, Out.idx, List.getElem?_cons_zero, List.getElem?_cons_succ]
  let V : Fin N → Fin C → Fin a.size → Fin b.size → ℝ := fun n c y x => A n c y x + convGradIn a b W G n c y x
  have hl := loop_eq (N := N) (fun gi i => convGradIter junk (flat4 G) (flat4 W) (geo a b) C a.size b.size O
      ((C : Int) * (geo a b).kh * (geo a b).kw) ((a.out : Int) * b.out) i gi)
    (fun k => flat4 (upTo k V A)) (fun i => by
      rw [convGradIter_eq junk ha hb da db W G _ i (rows := (C : Int) * (geo a b).kh * (geo a b).kw) rfl rfl hf, upTo_self, ← upTo_update V A i])
  simp only [upTo_zero, upTo_all] at hl
  rw [hl]

theorem convWeightsGrad_eq (X : Fin N → Fin C → Fin a.size → Fin b.size → ℝ)
    (G : Fin N → Fin O → Fin a.out → Fin b.out → ℝ) (gw : List ℝ)
    (hg : gw.length = O * (C * a.kernel * b.kernel)) :
    convWeightsGrad ⟨[N, O, a.out, b.out], flat4 G⟩ (convCols a b X) ⟨[O, C, a.kernel, b.kernel], gw⟩ =
      .ok (flat4 fun o c kh kw => ∑ n, ∑ r, ∑ q, G n o r q * window a b (X n c) 0 kh kw r q) := by
  unfold convWeightsGrad
  rw [dimN_zero]
  simp only [Out.bind_ok, dim, Out.idx, List.getElem?_cons_zero, List.getElem?_cons_succ, hg]
  have hz : List.replicate (O * (C * a.kernel * b.kernel)) (0 : ℝ) =
      rowMajor fun (_ : Fin O) (_ : Fin (C * a.kernel * b.kernel)) => (0 : ℝ) := by
    unfold rowMajor; rw [List.ofFn_const]
  have hm := mat_rowMajor fun (_ : Fin O) (_ : Fin (C * a.kernel * b.kernel)) => (0 : ℝ)
  push_cast at hm
  rw [hz, hm, Out.bind_ok]
  let V : Fin N → Fin O → Fin (C * a.kernel * b.kernel) → ℝ := fun n o p =>
    ∑ t : Fin (a.out * b.out), G n o t.divNat t.modNat * colMat a b (X n) 0 p t
  have hl := loop_eq (N := N) (fun (A : Mat) (i : Nat) => do
      let go ← block (flat4 G) ((i : Int) * O * ((a.out : Int) * b.out)) ((O : Int) * ((a.out : Int) * b.out))
      let M ← Eig.mat go O ((a.out : Int) * b.out)
      let col ← block (convCols a b X) ((i : Int) * ((C : Int) * a.kernel * b.kernel) * ((a.out : Int) * b.out))
        ((C : Int) * a.kernel * b.kernel * ((a.out : Int) * b.out))
      let Y ← Eig.mat col ((C : Int) * a.kernel * b.kernel) ((a.out : Int) * b.out)
      let p ← Eig.mul M (Eig.transpose Y)
      Eig.zip (· + ·) A p)
    (fun k => ⟨O, C * a.kernel * b.kernel, fun o p => ∑ n : Fin N, if n.val < k then V n o p else 0⟩) (fun i => by
      have hgo : block (flat4 G) ((i.val : Int) * O * ((a.out : Int) * b.out)) ((O : Int) * ((a.out : Int) * b.out)) =
          .ok (rowMajor fun o (p : Fin (a.out * b.out)) => G i o p.divNat p.modNat) :=
        block_row _ i (by push_cast; ring) (by push_cast; ring)
      have hM := mat_rowMajor fun o (p : Fin (a.out * b.out)) => G i o p.divNat p.modNat
      push_cast at hM
      have hcol : block (convCols a b X) ((i.val : Int) * ((C : Int) * a.kernel * b.kernel) * ((a.out : Int) * b.out))
          ((C : Int) * a.kernel * b.kernel * ((a.out : Int) * b.out)) = .ok (rowMajor (colMat a b (X i) 0)) :=
        block_row _ i (by push_cast; ring) (by push_cast; ring)
      have hY := mat_rowMajor (colMat a b (X i) 0)
      push_cast at hY
      rw [hgo, Out.bind_ok, hM, Out.bind_ok, hcol, Out.bind_ok, hY, Out.bind_ok, transpose_mk, mul_mk, Out.bind_ok, zip_mk]
      congr 2
      funext o p
      rw [← Finset.sum_erase_add _ _ (Finset.mem_univ i)]
      rw [← Finset.sum_erase_add (a := i) _ (fun n : Fin N => if n.val < i.val + 1 then V n o p else 0) (Finset.mem_univ i)]
      have h1 : ∀ n ∈ Finset.univ.erase i, (if n.val < i.val then V n o p else 0) =
          (if n.val < i.val + 1 then V n o p else 0) := fun n hn => by
        have : n.val ≠ i.val := fun h => (Finset.mem_erase.mp hn).1 (Fin.ext h)
        by_cases h2 : n.val < i.val
        · rw [if_pos h2, if_pos (by omega)]
        · rw [if_neg h2, if_neg (by omega)]
      rw [Finset.sum_congr rfl h1]
      simp [V])
  simp only [Nat.not_lt_zero, if_false, Finset.sum_const_zero] at hl
  refine (congrArg (fun t => t >>= fun A => Eig.setMat _ 0 O ((C : Int) * a.kernel * b.kernel) A) hl).trans ?_
  rw [Out.bind_ok]
  have hs := setMat_zero (rowMajor fun (_ : Fin O) (_ : Fin (C * a.kernel * b.kernel)) => (0 : ℝ))
    (fun o p => ∑ n : Fin N, if n.val < N then V n o p else 0) (by simp)
  push_cast at hs
  refine hs.trans ?_
  congr 1
  rw [flat4_cols]
  congr 1
  funext o p
  obtain ⟨p, kw, rfl⟩ := exists_pair p
  obtain ⟨c, kh, rfl⟩ := exists_pair p
  refine Finset.sum_congr rfl fun n _ => ?_
  rw [if_pos n.is_lt]
  simp only [V, pair_divNat, pair_modNat]
  rw [sum_pair]
  simp only [colMat, cols, pair_divNat, pair_modNat]

theorem convBiasGrad_eq (G : Fin N → Fin O → Fin a.out → Fin b.out → ℝ) (gb : List ℝ) (hg : gb.length = O)
    (bshape : Shape) :
    convBiasGrad ⟨[N, O, a.out, b.out], flat4 G⟩ ⟨bshape, gb⟩ = .ok (List.ofFn fun o => ∑ n, ∑ r, ∑ q, G n o r q) := by
  unfold convBiasGrad
  rw [dimN_zero]
  simp only [Out.bind_ok, dim, Out.idx, List.getElem?_cons_zero, List.getElem?_cons_succ, hg]
  have hz : List.replicate O (0 : ℝ) = List.ofFn fun (_ : Fin O) => (0 : ℝ) := (List.ofFn_const O 0).symm
  rw [hz, vec_ofFn, Out.bind_ok]
  let V : Fin N → Fin O → ℝ := fun n o => ∑ t : Fin (a.out * b.out), G n o t.divNat t.modNat
  have hl := loop_eq (N := N) (fun (v : Vec) (i : Nat) => do
      let go ← block (flat4 G) ((i : Int) * ((O : Int) * a.out * b.out)) ((O : Int) * ((a.out : Int) * b.out))
      let M ← Eig.mat go O ((a.out : Int) * b.out)
      Eig.vzip (· + ·) v (Eig.rowSum M))
    (fun k => ⟨O, fun o => ∑ n : Fin N, if n.val < k then V n o else 0⟩) (fun i => by
      have hgo : block (flat4 G) ((i.val : Int) * ((O : Int) * a.out * b.out)) ((O : Int) * ((a.out : Int) * b.out)) =
          .ok (rowMajor fun o (p : Fin (a.out * b.out)) => G i o p.divNat p.modNat) :=
        block_row _ i (by push_cast; ring) (by push_cast; ring)
      have hM := mat_rowMajor fun o (p : Fin (a.out * b.out)) => G i o p.divNat p.modNat
      push_cast at hM
      rw [hgo, Out.bind_ok, hM, Out.bind_ok, rowSum_mk, vzip_mk]
      congr 2
      funext o
      rw [← Finset.sum_erase_add _ _ (Finset.mem_univ i)]
      rw [← Finset.sum_erase_add (a := i) _ (fun n : Fin N => if n.val < i.val + 1 then V n o else 0) (Finset.mem_univ i)]
      have h1 : ∀ n ∈ Finset.univ.erase i, (if n.val < i.val then V n o else 0) =
          (if n.val < i.val + 1 then V n o else 0) := fun n hn => by
        have : n.val ≠ i.val := fun h => (Finset.mem_erase.mp hn).1 (Fin.ext h)
        by_cases h2 : n.val < i.val
        · rw [if_pos h2, if_pos (by omega)]
        · rw [if_neg h2, if_neg (by omega)]
      rw [Finset.sum_congr rfl h1]
      simp [V])
  simp only [Nat.not_lt_zero, if_false, Finset.sum_const_zero] at hl
  refine (congrArg (fun t => t >>= fun v => Eig.setVec _ O v) hl).trans ?_
  rw [Out.bind_ok, setVec_ofFn _ _ (by simp)]
  congr 2
  funext o
  refine Finset.sum_congr rfl fun n _ => ?_
  rw [if_pos n.is_lt]
  simp only [V]
  rw [sum_pair]
  simp only [pair_divNat, pair_modNat]

end

end DW.ConvL

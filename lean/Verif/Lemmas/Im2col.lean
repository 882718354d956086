import Verif.Model.Conv
import Verif.Spec.Conv
import Verif.Lemmas.Layout
import Verif.Lemmas.Norm
/-! `im2col` and `col2im`. -/

set_option autoImplicit false

namespace DW.Im2colL

open DW.Spec DW.MatL DW.FlatL DW.EigL DW.NormL

noncomputable section

/-- The parameters of a window operation as the layers hold them. -/
def geo (a b : Axis) : Geo := ⟨a.kernel, b.kernel, a.pad, b.pad, a.stride, b.stride⟩

theorem outDim_eq {a : Axis} (h : a.Valid) : outDim a.size a.kernel a.pad a.stride a.dil = .ok a.out := by
  obtain ⟨h1, h2⟩ := h
  unfold outDim
  rw [if_neg (by omega), h2]
  simp

/-! ### Addresses -/

/-- The address `im2col` and `col2im` use for an image coordinate of channel `c`. -/
def addr (H W : Nat) (c : Nat) (y x : Int) : Option Nat :=
  if (0 ≤ y ∧ y < H) ∧ 0 ≤ x ∧ x < W then some (c * (H * W) + (y.toNat * W + x.toNat)) else none

theorem cols_eq (w sw base : Int) (col : Int) (k : Nat) :
    im2colCols w sw base col k = List.ofFn fun q : Fin k =>
      if 0 ≤ col + q.val * sw ∧ col + q.val * sw < w then some (base + (col + q.val * sw)).toNat else none := by
  induction k generalizing col with
  | zero => simp [im2colCols]
  | succ k ih =>
    rw [im2colCols, ih, List.ofFn_succ]
    congr 1
    · simp
    · congr 1
      funext q
      simp only [Fin.val_succ]
      have : col + sw + (q.val : Int) * sw = col + ((q.val + 1 : Nat) : Int) * sw := by push_cast; ring
      rw [this]

theorem rows_eq (h w : Nat) (sh sw col : Int) (c wOut : Nat) (row : Int) (k : Nat) :
    im2colRows h w sh sw (c * (h * w) : Int) col wOut row k =
      rowMajor fun (r : Fin k) (q : Fin wOut) => addr h w c (row + r.val * sh) (col + q.val * sw) := by
  have : im2colRows h w sh sw (c * (h * w) : Int) col wOut row k = (List.range k).flatMap fun (r : Nat) =>
      List.ofFn fun q : Fin wOut => addr h w c (row + r * sh) (col + q.val * sw) := by
    induction k generalizing row with
    | zero => simp [im2colRows]
    | succ k ih =>
      rw [im2colRows, ih, List.range_succ_eq_map, List.flatMap_cons, List.flatMap_map]
      congr 1
      · by_cases hr : 0 ≤ row ∧ row < h
        · rw [if_neg (by simpa using hr), cols_eq]
          congr 1
          funext q
          unfold addr
          simp only [Nat.cast_zero, zero_mul, add_zero, hr, and_self, true_and]
          split
          · next hq =>
            congr 1
            obtain ⟨y, hy⟩ := Int.eq_ofNat_of_zero_le hr.1
            obtain ⟨x, hx⟩ := Int.eq_ofNat_of_zero_le hq.1
            rw [hy, hx]
            simp only [Int.ofNat_eq_natCast, Int.toNat_natCast]
            have : ((c : Int) * (h * w) + y * w + x) = ((c * (h * w) + (y * w + x) : Nat) : Int) := by push_cast; ring
            rw [this, Int.toNat_natCast]
          · rfl
        · rw [if_pos hr]
          have : ∀ q : Fin wOut, addr h w c (row + ((0 : Nat) : Int) * sh) (col + q.val * sw) = none := fun q => by
            unfold addr
            rw [if_neg]
            simp only [Nat.cast_zero, zero_mul, add_zero]
            exact fun h => hr h.1
          simp only [this]
          exact (List.ofFn_const wOut none).symm
      · congr 1
        funext r
        have : row + sh + (r : Int) * sh = row + ((r + 1 : Nat) : Int) * sh := by push_cast; ring
        simp only [this, Nat.succ_eq_add_one]
  rw [this]
  exact range_flatMap _ _ fun i => rfl

theorem reads_eq (C : Nat) (a b : Axis) :
    im2colReads C a.size b.size (geo a b) a.dil b.dil a.out b.out =
      flat4 fun (c : Fin C) (kh : Fin a.kernel) (kw : Fin b.kernel) (o : Fin (a.out * b.out)) =>
        addr a.size b.size c (a.pos o.divNat kh) (b.pos o.modNat kw) := by
  unfold im2colReads geo
  simp only [Int.toNat_natCast]
  refine range_flatMap4 _ _ fun c => ?_
  refine range_flatMap3 _ _ fun kh => ?_
  refine range_flatMap _ _ fun kw => ?_
  rw [rows_eq, rowMajor_eq_ofFn]
  congr 1
  funext o
  unfold Axis.pos
  congr 1 <;> ring

theorem col2imCols_eq (w sw base col : Int) (k : Nat) : col2imCols w sw base col k = im2colCols w sw base col k := by
  induction k generalizing col with
  | zero => rfl
  | succ k ih => rw [col2imCols, im2colCols, ih]

theorem col2imRows_eq (h w sh sw dst col : Int) (wOut : Nat) (row : Int) (k : Nat) :
    col2imRows h w sh sw dst col wOut row k = im2colRows h w sh sw dst col wOut row k := by
  induction k generalizing row with
  | zero => rfl
  | succ k ih => rw [col2imRows, im2colRows, ih, col2imCols_eq]

theorem writes_eq (C : Nat) (a b : Axis) :
    col2imWrites C a.size b.size (geo a b) a.dil b.dil a.out b.out =
      flat4 fun (c : Fin C) (kh : Fin a.kernel) (kw : Fin b.kernel) (o : Fin (a.out * b.out)) =>
        addr a.size b.size c (a.pos o.divNat kh) (b.pos o.modNat kw) := by
  rw [← reads_eq]
  unfold col2imWrites im2colReads
  simp only [col2imRows_eq]

/-! ### im2col -/

variable {C : Nat}

theorem read_eq {H W : Nat} (X : Fin C → Fin H → Fin W → ℝ) (rest : List ℝ) (fill : ℝ) (c : Fin C) (y x : Int) :
    readOrFill (flat3 X ++ rest) fill (addr H W c y x) = .ok (pixel (X c) fill y x) := by
  unfold addr pixel
  split
  · next h =>
    have hp : c.val * (H * W) + (y.toNat * W + x.toNat) =
        (pair c (pair (⟨y.toNat, by omega⟩ : Fin H) (⟨x.toNat, by omega⟩ : Fin W))).val := rfl
    have hlt : c.val * (H * W) + (y.toNat * W + x.toNat) < (flat3 X).length := by
      rw [flat3_length, hp]; exact Fin.is_lt _
    simp only [readOrFill, Out.idx]
    rw [List.getElem?_append_left hlt, hp, flat3_getElem?]
  · rfl

theorem mapM_ofFn {α β : Type} {n : Nat} (f : α → Out β) (g : Fin n → α) (v : Fin n → β) (h : ∀ i, f (g i) = .ok (v i)) :
    (List.ofFn g).mapM f = .ok (List.ofFn v) := by
  induction n with
  | zero => rfl
  | succ n ih =>
    rw [List.ofFn_succ, List.ofFn_succ, List.mapM_cons, h 0, Out.bind_ok, ih (fun i => g i.succ) (fun i => v i.succ)
      fun i => h i.succ]
    rfl

theorem mapM_flat4 {α β : Type} {k l m n : Nat} (f : α → Out β) (g : Fin k → Fin l → Fin m → Fin n → α)
    (v : Fin k → Fin l → Fin m → Fin n → β) (h : ∀ i j p q, f (g i j p q) = .ok (v i j p q)) :
    (flat4 g).mapM f = .ok (flat4 v) := by
  unfold flat4 rowMajor
  exact mapM_ofFn _ _ _ fun i => h _ _ _ _

/-- The contents `im2col` produces. -/
def cols (a b : Axis) (X : Fin C → Fin a.size → Fin b.size → ℝ) (fill : ℝ) (c : Fin C) (kh : Fin a.kernel)
    (kw : Fin b.kernel) (o : Fin (a.out * b.out)) : ℝ :=
  window a b (X c) fill kh kw o.divNat o.modNat

theorem im2col_eq {a b : Axis} (ha : a.Valid) (hb : b.Valid) (X : Fin C → Fin a.size → Fin b.size → ℝ)
    (rest : List ℝ) (fill : ℝ) (buf : List ℝ) (hl : C * (a.kernel * (b.kernel * (a.out * b.out))) ≤ buf.length) :
    im2col (flat3 X ++ rest) C a.size b.size buf (geo a b) a.dil b.dil fill =
      .ok (flat4 (cols a b X fill) ++ buf.drop (C * (a.kernel * (b.kernel * (a.out * b.out))))) := by
  unfold im2col
  have h1 : outDim a.size (geo a b).kh (geo a b).ph (geo a b).sh a.dil = .ok a.out := outDim_eq ha
  have h2 : outDim b.size (geo a b).kw (geo a b).pw (geo a b).sw b.dil = .ok b.out := outDim_eq hb
  rw [h1, Out.bind_ok, h2, Out.bind_ok, if_pos ⟨by omega, by omega, by omega⟩]
  simp only [Int.toNat_natCast]
  rw [reads_eq, mapM_flat4 _ _ (cols a b X fill) fun c kh kw o => read_eq X rest fill c _ _, Out.bind_ok,
    if_pos (by rw [flat4_length]; exact hl), flat4_length]

/-! ### col2im -/

theorem scatterAdd_ofFn {T : Nat} (ad : Fin T → Option Nat) (s : Fin T → ℝ) (rest dst : List ℝ)
    (h : ∀ t k, ad t = some k → k < dst.length) :
    ∃ r, scatterAdd (List.ofFn ad) (List.ofFn s ++ rest) dst = .ok r ∧ r.length = dst.length ∧
      ∀ k (hk : k < dst.length), r[k]? = some (dst[k] + ∑ t, if ad t = some k then s t else 0) := by
  induction T generalizing dst with
  | zero => exact ⟨dst, by simp [scatterAdd], rfl, fun k hk => by simp [hk]⟩
  | succ T ih =>
    rw [List.ofFn_succ, List.ofFn_succ, List.cons_append]
    rcases had : ad 0 with _ | k0
    · rw [scatterAdd, List.drop_one, List.tail_cons]
      obtain ⟨r, h1, h2, h3⟩ := ih (fun t => ad t.succ) (fun t => s t.succ) dst fun t k => h t.succ k
      refine ⟨r, h1, h2, fun k hk => ?_⟩
      rw [h3 k hk, Fin.sum_univ_succ, had]
      simp
    · have hk0 := h 0 k0 had
      rw [scatterAdd, List.getElem?_eq_getElem hk0]
      obtain ⟨r, h1, h2, h3⟩ := ih (fun t => ad t.succ) (fun t => s t.succ) (dst.set k0 (dst[k0] + s 0))
        fun t k ht => by rw [List.length_set]; exact h t.succ k ht
      refine ⟨r, h1, by rw [h2, List.length_set], fun k hk => ?_⟩
      rw [h3 k (by rw [List.length_set]; exact hk), Fin.sum_univ_succ, had, List.getElem_set]
      by_cases hkk : k0 = k
      · subst hkk
        simp [add_assoc]
      · rw [if_neg hkk, if_neg (by simpa using hkk), zero_add]

theorem addr_eq_some {H W : Nat} {c c' : Fin C} {y : Fin H} {x : Fin W} {y' x' : Int} :
    addr H W c' y' x' = some (pair c (pair y x)).val ↔ c' = c ∧ y' = y.val ∧ x' = x.val := by
  unfold addr
  constructor
  · intro h
    split at h
    · next hb =>
      have h' := Option.some.inj h
      have : pair c' (pair (⟨y'.toNat, by omega⟩ : Fin H) (⟨x'.toNat, by omega⟩ : Fin W)) = pair c (pair y x) :=
        Fin.ext h'
      rw [pair_inj, pair_inj] at this
      obtain ⟨h1, h2, h3⟩ := this
      refine ⟨h1, ?_, ?_⟩
      · rw [← h2]; simp; omega
      · rw [← h3]; simp; omega
    · exact absurd h (by simp)
  · rintro ⟨rfl, rfl, rfl⟩
    rw [if_pos ⟨⟨by omega, by omega⟩, by omega, by omega⟩]
    simp

theorem addr_lt {H W : Nat} {c : Fin C} {y x : Int} {k : Nat} (h : addr H W c y x = some k) : k < C * (H * W) := by
  unfold addr at h
  split at h
  · next hb =>
    have h' := Option.some.inj h
    rw [← h']
    exact Fin.is_lt (pair c (pair (⟨y.toNat, by omega⟩ : Fin H) (⟨x.toNat, by omega⟩ : Fin W)))
  · exact absurd h (by simp)

theorem col2im_eq {a b : Axis} (ha : a.Valid) (hb : b.Valid)
    (B : Fin C → Fin a.kernel → Fin b.kernel → Fin (a.out * b.out) → ℝ) (rest : List ℝ)
    (A : Fin C → Fin a.size → Fin b.size → ℝ) :
    col2im (flat4 B ++ rest) (flat3 A) C a.size b.size (geo a b) a.dil b.dil =
      .ok (flat3 fun c y x => A c y x + gathered a b (fun kh kw r q => B c kh kw (pair r q)) y x) := by
  unfold col2im
  have h1 : outDim a.size (geo a b).kh (geo a b).ph (geo a b).sh a.dil = .ok a.out := outDim_eq ha
  have h2 : outDim b.size (geo a b).kw (geo a b).pw (geo a b).sw b.dil = .ok b.out := outDim_eq hb
  rw [h1, Out.bind_ok, h2, Out.bind_ok, if_pos ⟨by omega, by omega, by omega⟩]
  simp only [Int.toNat_natCast]
  rw [writes_eq]
  obtain ⟨r, hr, hrl, hrk⟩ := scatterAdd_ofFn
    (fun t : Fin (C * (a.kernel * (b.kernel * (a.out * b.out)))) =>
      addr a.size b.size t.divNat (a.pos t.modNat.modNat.modNat.divNat t.modNat.divNat)
        (b.pos t.modNat.modNat.modNat.modNat t.modNat.modNat.divNat))
    (fun t => B t.divNat t.modNat.divNat t.modNat.modNat.divNat t.modNat.modNat.modNat) rest (flat3 A)
    (fun t k h => by rw [flat3_length]; exact addr_lt h)
  refine hr.trans ?_
  congr 1
  refine eq_flat3 (by rw [hrl, flat3_length]) fun c y x => ?_
  have hlt : (pair c (pair y x)).val < (flat3 A).length := by rw [flat3_length]; exact Fin.is_lt _
  rw [hrk _ hlt]
  congr 2
  · have := flat3_getElem? A c y x
    rw [List.getElem?_eq_getElem hlt] at this
    exact Option.some.inj this
  · rw [sum_pair]
    simp only [addr_eq_some, pair_divNat, pair_modNat]
    rw [Finset.sum_eq_single c (fun c' _ hc => Finset.sum_eq_zero fun t _ => if_neg fun h => hc h.1)
      (fun h => absurd (Finset.mem_univ c) h)]
    unfold gathered
    rw [sum_pair]
    refine Finset.sum_congr rfl fun kh _ => ?_
    rw [sum_pair]
    refine Finset.sum_congr rfl fun kw _ => ?_
    rw [sum_pair]
    refine Finset.sum_congr rfl fun r _ => Finset.sum_congr rfl fun q _ => ?_
    simp only [pair_divNat, pair_modNat, true_and]

/-! ### Adjointness -/

theorem window_eq_sum (a b : Axis) (X : Fin a.size → Fin b.size → ℝ) (kh : Fin a.kernel) (kw : Fin b.kernel)
    (r : Fin a.out) (q : Fin b.out) :
    window a b X 0 kh kw r q = ∑ y : Fin a.size, ∑ x : Fin b.size,
      if a.pos r kh = y.val ∧ b.pos q kw = x.val then X y x else 0 := by
  unfold window pixel
  split
  · next h =>
    rw [Finset.sum_eq_single (⟨(a.pos r kh).toNat, by omega⟩ : Fin a.size), Finset.sum_eq_single
      (⟨(b.pos q kw).toNat, by omega⟩ : Fin b.size), if_pos]
    · constructor <;> simp <;> omega
    · intro x _ hx
      refine if_neg fun hh => hx ?_
      apply Fin.ext
      simp only
      omega
    · exact fun h => absurd (Finset.mem_univ _) h
    · intro y _ hy
      refine Finset.sum_eq_zero fun x _ => if_neg fun hh => hy ?_
      apply Fin.ext
      simp only
      omega
    · exact fun h => absurd (Finset.mem_univ _) h
  · next h =>
    refine (Finset.sum_eq_zero fun y _ => Finset.sum_eq_zero fun x _ => if_neg fun hh => h ?_).symm
    omega

/-- Extracting windows and gathering them are adjoint. -/
theorem window_adjoint (a b : Axis) (X : Fin a.size → Fin b.size → ℝ)
    (B : Fin a.kernel → Fin b.kernel → Fin a.out → Fin b.out → ℝ) :
    ∑ kh : Fin a.kernel, ∑ kw : Fin b.kernel, ∑ r : Fin a.out, ∑ q : Fin b.out, B kh kw r q * window a b X 0 kh kw r q = ∑ y, ∑ x, gathered a b B y x * X y x := by
  have e1 : ∀ (kh : Fin a.kernel) (kw : Fin b.kernel) (r : Fin a.out) (q : Fin b.out),
      B kh kw r q * window a b X 0 kh kw r q = ∑ p : Fin a.size × Fin b.size,
      if a.pos r kh = p.1.val ∧ b.pos q kw = p.2.val then B kh kw r q * X p.1 p.2 else 0 := fun kh kw r q => by
    rw [window_eq_sum, Fintype.sum_prod_type, Finset.mul_sum]
    refine Finset.sum_congr rfl fun y _ => ?_
    rw [Finset.mul_sum]
    exact Finset.sum_congr rfl fun x _ => by split <;> simp
  simp only [e1]
  rw [← Fintype.sum_prod_type' (f := fun y x => gathered a b B y x * X y x)]
  have e2 : ∀ p : Fin a.size × Fin b.size, gathered a b B p.1 p.2 * X p.1 p.2 = ∑ kh : Fin a.kernel, ∑ kw : Fin b.kernel,
      ∑ r : Fin a.out, ∑ q : Fin b.out, if a.pos r kh = p.1.val ∧ b.pos q kw = p.2.val then B kh kw r q * X p.1 p.2 else 0 := fun p => by
    unfold gathered
    simp only [Finset.sum_mul]
    refine Finset.sum_congr rfl fun kh _ => Finset.sum_congr rfl fun kw _ => Finset.sum_congr rfl fun r _ =>
      Finset.sum_congr rfl fun q _ => ?_
    split <;> simp
  simp only [e2]
  symm
  rw [Finset.sum_comm]
  refine Finset.sum_congr rfl fun kh _ => ?_
  rw [Finset.sum_comm]
  refine Finset.sum_congr rfl fun kw _ => ?_
  rw [Finset.sum_comm]
  refine Finset.sum_congr rfl fun r _ => ?_
  rw [Finset.sum_comm]

end

end DW.Im2colL

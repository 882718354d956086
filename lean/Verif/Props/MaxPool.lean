import Mathlib.Analysis.Calculus.LocalExtr.Basic
import Verif.Lemmas.Pool
import Verif.Lemmas.ConvDeriv
import Mathlib.Topology.Instances.Real.Lemmas
import Mathlib.Topology.Order.Basic
/-!
# Max pooling (C34, C35)

Eigen's `maxCoeff` reports some row with the largest value; `pick` is any function that does so
(`Spec.IsPick`).
-/

set_option autoImplicit false

namespace DW.Props.MaxPoolP

open DW.Spec DW.MatL DW.FlatL DW.EigL DW.NormL DW.DerivL DW.LayoutL DW.Im2colL DW.ConvL DW.PoolL

noncomputable section

variable {N C : Nat} {a b : Axis}

/-- What `MaxPooling` accepts: a positive kernel and stride. -/
structure PoolAxis (a : Axis) : Prop where
  valid : a.Valid
  dil : a.dil = 1
  kernel : 0 < a.kernel

/-- The layer before a call: any scratch tensors, except that a tensor of the output's shape has as many
elements as the shape says. -/
structure Ready (N C : Nat) (a b : Axis) (st : PoolSt) : Prop where
  geo : st.geo = geo a b
  full : st.maxIndices.shape = [(N : Int), C, a.out, b.out] → st.maxIndices.vals.length = N * (C * (a.out * b.out))

/-- The layer remembers which element of each window was chosen. -/
structure Remembers (st : PoolSt) (win : Fin N → Fin C → Fin a.out → Fin b.out → Fin a.kernel × Fin b.kernel) : Prop where
  geo : st.geo = Im2colL.geo a b
  indices : st.maxIndices = ⟨[(N : Int), C, a.out, b.out],
    flat4 fun n c r q => (((win n c r q).1.val * b.kernel + (win n c r q).2.val : Nat) : ℝ)⟩
  scratch : st.im2col.vals.length = a.kernel * b.kernel * (a.out * b.out)

theorem Remembers.ready {st : PoolSt} {win : Fin N → Fin C → Fin a.out → Fin b.out → Fin a.kernel × Fin b.kernel}
    (h : Remembers st win) : Ready N C a b st :=
  ⟨h.geo, fun _ => by rw [h.indices, flat4_length]⟩

theorem flat4_planes3 {α : Type} {k l m n : Nat} (X : Fin k → Fin l → Fin m → Fin n → α) :
    flat4 X = flat3 fun (i : Fin (k * l)) => X i.divNat i.modNat := flat4_planes X

/-- `win` is what `pick` reports for each window. -/
def Chosen (pick : List ℝ → Nat) (a b : Axis) (X : Fin N → Fin C → Fin a.size → Fin b.size → ℝ)
    (win : Fin N → Fin C → Fin a.out → Fin b.out → Fin a.kernel × Fin b.kernel) : Prop :=
  ∀ n c r q, pick (List.ofFn fun p : Fin (a.kernel * b.kernel) => window a b (X n c) floatMin p.divNat p.modNat r q) =
    (win n c r q).1.val * b.kernel + (win n c r q).2.val

theorem Chosen.unique {pick : List ℝ → Nat} {X : Fin N → Fin C → Fin a.size → Fin b.size → ℝ}
    {win win' : Fin N → Fin C → Fin a.out → Fin b.out → Fin a.kernel × Fin b.kernel} (h : Chosen pick a b X win)
    (h' : Chosen pick a b X win') : win = win' := by
  funext n c r q
  have e : pair (win n c r q).1 (win n c r q).2 = pair (win' n c r q).1 (win' n c r q).2 :=
    Fin.ext (by simp only [pair_val]; exact (h n c r q).symm.trans (h' n c r q))
  rw [pair_inj] at e
  exact Prod.ext e.1 e.2

/-- The forward pass chooses in each window an element with the largest value, where positions outside the
image count as `floatMin`. -/
theorem maxPooling_forward {pick : List ℝ → Nat} (hp : IsPick pick) (junk : Nat → ℝ) (ha : PoolAxis a) (hb : PoolAxis b)
    {st : PoolSt} (hst : Ready N C a b st) (X : Fin N → Fin C → Fin a.size → Fin b.size → ℝ) (old : List ℝ)
    (ho : old.length = N * (C * (a.out * b.out)))
    (hf : CountFits [(N : Int), C, a.out, b.out]) (hf' : a.kernel * b.kernel * (a.out * b.out) ≤ 2147483647) :
    ∃ (win : Fin N → Fin C → Fin a.out → Fin b.out → Fin a.kernel × Fin b.kernel) (st' : PoolSt),
      Remembers st' win ∧
      (∀ n c r q kh kw, window a b (X n c) floatMin kh kw r q ≤
        window a b (X n c) floatMin (win n c r q).1 (win n c r q).2 r q) ∧
      Chosen pick a b X win ∧
      st.forward pick junk [⟨[N, C, a.size, b.size], flat4 X⟩] [⟨[N, C, a.out, b.out], old⟩] =
        .ok (st', flat4 fun n c r q => window a b (X n c) floatMin (win n c r q).1 (win n c r q).2 r q) := by
  have hR : 0 < a.kernel * b.kernel := Nat.mul_pos ha.kernel hb.kernel
  have h1 : ∃ t : Buf, t.vals.length = N * (C * (a.out * b.out)) ∧ t.shape = [(N : Int), C, a.out, b.out] ∧
      renew junk (st.maxIndices.shape != [(N : Int), C, a.out, b.out]) st.maxIndices [(N : Int), C, a.out, b.out] = .ok t := by
    unfold renew
    by_cases h : st.maxIndices.shape = [(N : Int), C, a.out, b.out]
    · exact ⟨st.maxIndices, hst.full h, h, by rw [if_neg (by simp [h])]⟩
    · refine ⟨⟨[(N : Int), C, a.out, b.out], (List.range (N * (C * (a.out * b.out)))).map junk⟩, by simp, rfl, ?_⟩
      rw [if_pos (by simpa using h)]
      exact freshBuf_eq junk (by simp [Static]) hf (by simp [count])
  have h2 : ∃ t : Buf, t.vals.length = a.kernel * b.kernel * (a.out * b.out) ∧
      renew junk (decide ((st.im2col.vals.length : Int) ≠ (a.kernel : Int) * b.kernel * (a.out * b.out))) st.im2col
        [(a.kernel : Int) * b.kernel * (a.out * b.out)] = .ok t := by
    unfold renew
    by_cases h : (st.im2col.vals.length : Int) = (a.kernel : Int) * b.kernel * (a.out * b.out)
    · exact ⟨st.im2col, by exact_mod_cast h, by rw [if_neg (by simpa using h)]⟩
    · refine ⟨⟨[(a.kernel : Int) * b.kernel * (a.out * b.out)], (List.range (a.kernel * b.kernel * (a.out * b.out))).map junk⟩,
        by simp, ?_⟩
      rw [if_pos (by simpa using h)]
      refine freshBuf_eq junk ?_ ?_ (by simp [count])
      · intro d hd
        simp only [List.mem_cons, List.not_mem_nil, or_false] at hd
        rw [hd]; positivity
      · intro k
        rcases k with _ | k
        · simp
        · simpa using (by exact_mod_cast hf' : (a.kernel : Int) * b.kernel * (a.out * b.out) ≤ 2147483647)
  obtain ⟨t1, ht1, ht1s, hr1⟩ := h1
  obtain ⟨t2, ht2, hr2⟩ := h2
  obtain ⟨row, buf', hmax, hpick, hbuf, hloop⟩ := poolLoop_eq hp ha.valid hb.valid ha.dil hb.dil hR
    (fun (i : Fin (N * C)) => X i.divNat i.modNat) old t1.vals t2.vals (by rw [ho]; ring) (by rw [ht1]; ring) ht2
    (rows := (geo a b).kh * (geo a b).kw) rfl (cs := (a.out : Int) * b.out) rfl
  let win : Fin N → Fin C → Fin a.out → Fin b.out → Fin a.kernel × Fin b.kernel := fun n c r q =>
    ((row (pair n c) (pair r q)).divNat, (row (pair n c) (pair r q)).modNat)
  refine ⟨win, { st with maxIndices := ⟨[(N : Int), C, a.out, b.out],
      flat4 fun n c r q => (((win n c r q).1.val * b.kernel + (win n c r q).2.val : Nat) : ℝ)⟩, im2col := ⟨t2.shape, buf'⟩ },
    ⟨hst.geo, rfl, hbuf⟩, fun n c r q kh kw => ?_, fun n c r q => ?_, ?_⟩
  · have := hmax (pair n c) (pair r q) (pair kh kw)
    simpa only [poolMat, pair_divNat, pair_modNat] using this
  · have := hpick (pair n c) (pair r q)
    simp only [poolMat, pair_divNat, pair_modNat] at this
    rw [this]
    simp only [win]
    rw [← pair_val, pair_div_mod]
  · have hv : st.geo.validate = .ok () := by
      have h1 := ha.kernel
      have h2 := hb.kernel
      have h3 := ha.valid.1
      have h4 := hb.valid.1
      rw [hst.geo]
      simp [Geo.validate, geo, Out.check, h1, h2, h3, h4]
    have hvals : (rowMajor fun i o => poolMat a b (X i.divNat i.modNat) floatMin (row i o) o) =
        flat4 fun n c r q => window a b (X n c) floatMin (win n c r q).1 (win n c r q).2 r q := by
      rw [flat4_planes]
      congr 1
      funext i o
      simp only [poolMat, win, pair_div_mod]
    have hidx : (rowMajor fun (i : Fin (N * C)) o => ((row i o).val : ℝ)) =
        flat4 fun n c r q => (((win n c r q).1.val * b.kernel + (win n c r q).2.val : Nat) : ℝ) := by
      rw [flat4_planes]
      congr 1
      funext i o
      simp only [win, pair_div_mod]
      rw [← pair_val, pair_div_mod]
    unfold PoolSt.forward
    rw [hv]
    simp only [Out.bind_ok, dim, Out.idx, List.getElem?_cons_zero, List.getElem?_cons_succ]
    rw [hr1, Out.bind_ok]
    have hr2' : renew junk (decide ((st.im2col.vals.length : Int) ≠ st.geo.kh * st.geo.kw * ((a.out : Int) * b.out)))
        st.im2col [st.geo.kh * st.geo.kw * ((a.out : Int) * b.out)] = .ok t2 := by
      rw [hst.geo]; exact hr2
    rw [hr2', Out.bind_ok]
    have hpf : poolForward pick ⟨[(N : Int), C, a.size, b.size], flat4 X⟩ ⟨[(N : Int), C, a.out, b.out], old⟩ t1.vals t2.vals
        st.geo = .ok (flat4 fun n c r q => window a b (X n c) floatMin (win n c r q).1 (win n c r q).2 r q,
          flat4 fun n c r q => (((win n c r q).1.val * b.kernel + (win n c r q).2.val : Nat) : ℝ), buf') := by
      unfold poolForward
      rw [hst.geo, flat4_planes3 X]
      simp only [dimN, dim, Out.idx, List.getElem?_cons_zero, List.getElem?_cons_succ, Out.bind_ok, Int.toNat_natCast,
        Int.natCast_nonneg, if_true]
      rw [hloop, hvals, hidx]
    rw [hpf, Out.bind_ok]
    simp only [Buf.put, ht1s]

/-- The backward pass adds each output gradient to the pixel under the chosen element, if there is one. -/
theorem maxPooling_backward (ha : PoolAxis a) (hb : PoolAxis b) {st : PoolSt}
    {win : Fin N → Fin C → Fin a.out → Fin b.out → Fin a.kernel × Fin b.kernel} (hst : Remembers st win)
    (G : Fin N → Fin C → Fin a.out → Fin b.out → ℝ) (A : Fin N → Fin C → Fin a.size → Fin b.size → ℝ) :
    ∃ st', Remembers st' win ∧
      st.backward ⟨[N, C, a.out, b.out], flat4 G⟩ ⟨[N, C, a.size, b.size], flat4 A⟩ =
        .ok (st', flat4 fun n c y x => A n c y x + ∑ r : Fin a.out, ∑ q : Fin b.out,
          if a.pos r (win n c r q).1 = y.val ∧ b.pos q (win n c r q).2 = x.val then G n c r q else 0) := by
  let row : Fin (N * C) → Fin (a.out * b.out) → Fin (a.kernel * b.kernel) := fun i o =>
    pair (win i.divNat i.modNat o.divNat o.modNat).1 (win i.divNat i.modNat o.divNat o.modNat).2
  obtain ⟨buf', hbuf, hloop⟩ := poolGradLoop_eq ha.valid hb.valid ha.dil hb.dil row
    (fun (i : Fin (N * C)) (o : Fin (a.out * b.out)) => G i.divNat i.modNat o.divNat o.modNat)
    (fun (i : Fin (N * C)) => A i.divNat i.modNat) st.im2col.vals hst.scratch (cs := (a.out : Int) * b.out) rfl
  refine ⟨{ st with im2col := st.im2col.put buf' }, ⟨hst.geo, hst.indices, hbuf⟩, ?_⟩
  have hidx : st.maxIndices.vals = rowMajor fun i o => ((row i o).val : ℝ) := by
    rw [hst.indices]
    simp only
    rw [flat4_planes]
    congr 1
  unfold PoolSt.backward
  have hsh : (st.maxIndices.shape == [(N : Int), C, a.out, b.out]) = true := by rw [hst.indices]; simp
  rw [hsh]
  simp only [Out.check, if_true, Out.bind_ok]
  have hpg : poolInputGrad ⟨[(N : Int), C, a.out, b.out], flat4 G⟩ st.maxIndices.vals st.im2col.vals
      ⟨[(N : Int), C, a.size, b.size], flat4 A⟩ st.geo =
      .ok (buf', flat4 fun n c y x => A n c y x + ∑ r : Fin a.out, ∑ q : Fin b.out,
          if a.pos r (win n c r q).1 = y.val ∧ b.pos q (win n c r q).2 = x.val then G n c r q else 0) := by
    unfold poolInputGrad
    rw [hst.geo, hidx, flat4_planes3 A, flat4_planes G]
    simp only [dimN, dim, Out.idx, List.getElem?_cons_zero, List.getElem?_cons_succ, Out.bind_ok, Int.toNat_natCast,
      Int.natCast_nonneg, if_true]
    rw [hloop, flat4_planes3]
    simp only [row, pair_divNat, pair_modNat]
  rw [hpg, Out.bind_ok]

/-! ## C34 -/

/-- Pixel `y` lies under the window at position `r`. -/
def Under (a : Axis) (r : Fin a.out) (y : Fin a.size) : Prop := ∃ kh : Fin a.kernel, a.pos r kh = y.val

/-- `v` is the largest of the pixels under the window at `(r, q)`. -/
def WindowMax (a b : Axis) (X : Fin a.size → Fin b.size → ℝ) (r : Fin a.out) (q : Fin b.out) (v : ℝ) : Prop :=
  IsGreatest {v | ∃ y x, Under a r y ∧ Under b q x ∧ v = X y x} v

theorem window_inside {X : Fin a.size → Fin b.size → ℝ} {fill : ℝ} {kh : Fin a.kernel} {kw : Fin b.kernel} {r : Fin a.out}
    {q : Fin b.out} {y : Fin a.size} {x : Fin b.size} (hy : a.pos r kh = y.val) (hx : b.pos q kw = x.val) :
    window a b X fill kh kw r q = X y x := by
  unfold window pixel
  rw [dif_pos ⟨⟨by omega, by omega⟩, by omega, by omega⟩]
  congr 1 <;> apply Fin.ext <;> simp only <;> omega

/-- Every element is a pixel or the fill value. -/
theorem window_cases (X : Fin a.size → Fin b.size → ℝ) (fill : ℝ) (kh : Fin a.kernel) (kw : Fin b.kernel) (r : Fin a.out)
    (q : Fin b.out) :
    (∃ y x, a.pos r kh = (y : Fin a.size).val ∧ b.pos q kw = (x : Fin b.size).val ∧ window a b X fill kh kw r q = X y x) ∨
      ((∀ y : Fin a.size, ∀ x : Fin b.size, ¬ (a.pos r kh = y.val ∧ b.pos q kw = x.val)) ∧
        window a b X fill kh kw r q = fill) := by
  by_cases h : (0 ≤ a.pos r kh ∧ a.pos r kh < a.size) ∧ 0 ≤ b.pos q kw ∧ b.pos q kw < b.size
  · refine .inl ⟨⟨(a.pos r kh).toNat, by omega⟩, ⟨(b.pos q kw).toNat, by omega⟩, by simp only; omega, by simp only; omega, ?_⟩
    unfold window pixel
    rw [dif_pos h]
  · refine .inr ⟨fun y x hyx => h ?_, ?_⟩
    · have := y.is_lt
      have := x.is_lt
      omega
    · unfold window pixel
      rw [dif_neg h]

/-- The full claim: for every input, the output is the maximum of the pixels under each window that meets
the image. -/
def WindowMaximum : Prop :=
  ∀ (N C : Nat) (a b : Axis) (pick : List ℝ → Nat) (junk : Nat → ℝ) (st : PoolSt)
    (X : Fin N → Fin C → Fin a.size → Fin b.size → ℝ) (old : List ℝ),
    IsPick pick → PoolAxis a → PoolAxis b → Ready N C a b st → old.length = N * (C * (a.out * b.out)) →
    CountFits [(N : Int), C, a.out, b.out] → a.kernel * b.kernel * (a.out * b.out) ≤ 2147483647 →
    ∃ st' out, st.forward pick junk [⟨[N, C, a.size, b.size], flat4 X⟩] [⟨[N, C, a.out, b.out], old⟩] =
        .ok (st', flat4 out) ∧
      ∀ n c r q, (∃ y x, Under a r y ∧ Under b q x) → WindowMax a b (X n c) r q (out n c r q)

/-- A 1×1 image, a 2×2 window, padding 1, stride 1. -/
def axisBad : Axis := ⟨1, 2, 1, 1, 1, 2⟩

theorem axisBad_pool : PoolAxis axisBad := ⟨⟨by decide, by decide⟩, rfl, by decide⟩

theorem floatMin_pos : 0 < floatMin := by unfold floatMin; positivity

/-- Some choice function exists. -/
theorem exists_pick : ∃ pick, IsPick pick := by
  have : ∀ l : List ℝ, ∃ i, l ≠ [] → ∃ v, l[i]? = some v ∧ ∀ x ∈ l, x ≤ v := fun l => by
    induction l with
    | nil => exact ⟨0, fun h => absurd rfl h⟩
    | cons y l ih =>
      obtain ⟨i, hi⟩ := ih
      by_cases hl : l = []
      · exact ⟨0, fun _ => ⟨y, rfl, by simp [hl]⟩⟩
      · obtain ⟨v, h1, h2⟩ := hi hl
        by_cases hv : v ≤ y
        · exact ⟨0, fun _ => ⟨y, rfl, fun x hx => by
            rcases List.mem_cons.mp hx with rfl | hx
            · exact le_refl _
            · exact (h2 x hx).trans hv⟩⟩
        · exact ⟨i + 1, fun _ => ⟨v, by simpa using h1, fun x hx => by
            rcases List.mem_cons.mp hx with rfl | hx
            · exact le_of_lt (not_le.mp hv)
            · exact h2 x hx⟩⟩
  choose pick h using this
  exact ⟨pick, h⟩

theorem bad_count : CountFits [((1 : Nat) : Int), ((1 : Nat) : Int), (axisBad.out : Int), (axisBad.out : Int)] := by
  intro k
  rcases k with _ | _ | _ | _ | k <;> simp [axisBad]

/-- With a negative image every window of the example chooses a padding element. -/
theorem bad_window (X : Fin axisBad.size → Fin axisBad.size → ℝ) (hX : ∀ y x, X y x = -1)
    (k : Fin axisBad.kernel × Fin axisBad.kernel) (r q : Fin axisBad.out)
    (hmax : ∀ kh kw, window axisBad axisBad X floatMin kh kw r q ≤ window axisBad axisBad X floatMin k.1 k.2 r q) :
    (∀ y : Fin axisBad.size, ∀ x : Fin axisBad.size, ¬ (axisBad.pos r k.1 = y.val ∧ axisBad.pos q k.2 = x.val)) ∧
      window axisBad axisBad X floatMin k.1 k.2 r q = floatMin := by
  rcases window_cases X floatMin k.1 k.2 r q with ⟨y, x, hy, hx, hv⟩ | h
  · -- the element of the same column outside the image is larger
    exfalso
    have hr := r.is_lt
    have hy' := y.is_lt
    simp only [axisBad] at hr hy'
    have hk := hmax (⟨r.val, hr⟩ : Fin 2) k.2
    rcases window_cases X floatMin (⟨r.val, hr⟩ : Fin 2) k.2 r q with ⟨y2, x2, h1, _⟩ | ⟨_, h2⟩
    · have hy2 := y2.is_lt
      simp only [axisBad, Axis.pos] at h1 hy2
      omega
    · rw [h2, hv, hX] at hk
      have := floatMin_pos
      linarith
  · exact h

/-- **C34** is false: for a 1×1 image holding -1 and a 2×2 window with padding 1, the output is the positive
fill value. -/
theorem window_maximum_refuted : ¬ WindowMaximum := by
  intro h
  obtain ⟨pick, hp⟩ := exists_pick
  let X : Fin 1 → Fin 1 → Fin axisBad.size → Fin axisBad.size → ℝ := fun _ _ _ _ => -1
  have hst : Ready 1 1 axisBad axisBad { geo := geo axisBad axisBad } := ⟨rfl, fun h => by simp at h⟩
  have ho : (List.replicate 4 (0 : ℝ)).length = 1 * (1 * (axisBad.out * axisBad.out)) := by simp [axisBad]
  obtain ⟨st', out, h1, h2⟩ := h 1 1 axisBad axisBad pick (fun _ => 0) { geo := geo axisBad axisBad } X (List.replicate 4 0)
    hp axisBad_pool axisBad_pool hst ho bad_count (by decide)
  obtain ⟨win, st'', _, hmax, -, h3⟩ := maxPooling_forward hp (fun _ => 0) axisBad_pool axisBad_pool hst X (List.replicate 4 0)
    ho bad_count (by decide)
  rw [h3] at h1
  have hout := flat4_inj (Prod.mk.inj (Out.ok.inj h1)).2
  have hr : (0 : Nat) < axisBad.out := by decide
  have hy : (0 : Nat) < axisBad.size := by decide
  have hk : (1 : Nat) < axisBad.kernel := by decide
  obtain ⟨hmem, _⟩ := h2 0 0 ⟨0, hr⟩ ⟨0, hr⟩ ⟨⟨0, hy⟩, ⟨0, hy⟩, ⟨⟨1, hk⟩, by simp [Axis.pos, axisBad]⟩,
    ⟨⟨1, hk⟩, by simp [Axis.pos, axisBad]⟩⟩
  obtain ⟨y, x, _, _, hv⟩ := hmem
  rw [← hout] at hv
  simp only at hv
  rw [(bad_window (X 0 0) (fun _ _ => rfl) (win 0 0 ⟨0, hr⟩ ⟨0, hr⟩) _ _ fun kh kw => hmax 0 0 _ _ kh kw).2] at hv
  have := floatMin_pos
  simp only [X] at hv
  linarith

/-- The window at `(r, q)` lies inside the image. -/
def Inside (a : Axis) (r : Fin a.out) : Prop := ∀ kh : Fin a.kernel, ∃ y : Fin a.size, a.pos r kh = y.val

theorem pool_max (X : Fin a.size → Fin b.size → ℝ) (r : Fin a.out) (q : Fin b.out) (k : Fin a.kernel × Fin b.kernel)
    (hmax : ∀ kh kw, window a b X floatMin kh kw r q ≤ window a b X floatMin k.1 k.2 r q)
    (h : (Inside a r ∧ Inside b q) ∨ ∃ y x, Under a r y ∧ Under b q x ∧ floatMin ≤ X y x) :
    WindowMax a b X r q (window a b X floatMin k.1 k.2 r q) := by
  constructor
  · rcases window_cases X floatMin k.1 k.2 r q with ⟨y, x, hy, hx, hv⟩ | ⟨hno, hv⟩
    · exact ⟨y, x, ⟨k.1, hy⟩, ⟨k.2, hx⟩, hv⟩
    · rcases h with ⟨h1, h2⟩ | ⟨y, x, ⟨kh, hkh⟩, ⟨kw, hkw⟩, hle⟩
      · obtain ⟨y, hy⟩ := h1 k.1
        obtain ⟨x, hx⟩ := h2 k.2
        exact absurd ⟨hy, hx⟩ (hno y x)
      · refine ⟨y, x, ⟨kh, hkh⟩, ⟨kw, hkw⟩, ?_⟩
        have := hmax kh kw
        rw [window_inside hkh hkw, hv] at this
        rw [hv]
        exact le_antisymm hle this
  · rintro v ⟨y, x, ⟨kh, hkh⟩, ⟨kw, hkw⟩, rfl⟩
    have := hmax kh kw
    rwa [window_inside hkh hkw] at this

/-- **C34**, the part that holds: the output is the maximum of the pixels under a window if the window lies
inside the image or some pixel under it is at least the smallest positive normal float. Missing are windows that
overlap the padding while all their pixels are smaller (`window_maximum_refuted`). -/
theorem window_maximum_partial {pick : List ℝ → Nat} (hp : IsPick pick) (junk : Nat → ℝ) (ha : PoolAxis a) (hb : PoolAxis b)
    {st : PoolSt} (hst : Ready N C a b st) (X : Fin N → Fin C → Fin a.size → Fin b.size → ℝ) (old : List ℝ)
    (ho : old.length = N * (C * (a.out * b.out)))
    (hf : CountFits [(N : Int), C, a.out, b.out]) (hf' : a.kernel * b.kernel * (a.out * b.out) ≤ 2147483647) :
    ∃ st' out, st.forward pick junk [⟨[N, C, a.size, b.size], flat4 X⟩] [⟨[N, C, a.out, b.out], old⟩] =
        .ok (st', flat4 out) ∧
      ∀ n c r q, (Inside a r ∧ Inside b q) ∨ (∃ y x, Under a r y ∧ Under b q x ∧ floatMin ≤ X n c y x) →
        WindowMax a b (X n c) r q (out n c r q) := by
  obtain ⟨win, st', _, hmax, -, h⟩ := maxPooling_forward hp junk ha hb hst X old ho hf hf'
  exact ⟨st', _, h, fun n c r q hh => pool_max (X n c) r q (win n c r q) (fun kh kw => hmax n c r q kh kw) hh⟩

/-- Without padding, if the window fits into the image, every window lies inside. -/
theorem inside_of_no_padding (ha : PoolAxis a) (hpad : a.pad = 0) (hfit : a.kernel ≤ a.size) (r : Fin a.out) : Inside a r := by
  intro kh
  obtain ⟨⟨hs, ho⟩, hd, hk⟩ := ha
  rw [hpad, hd] at ho
  obtain ⟨e, he⟩ := Nat.exists_eq_add_of_le hfit
  have h1 : ((a.size : Int) + 2 * ((0 : Nat) : Int) - (((1 : Nat) : Int) * ((a.kernel : Int) - 1) + 1)) = (e : Int) := by
    rw [he]; push_cast; ring
  rw [h1, ← Int.ofNat_tdiv] at ho
  have h2 : a.out = e / a.stride + 1 := by
    have : ((e / a.stride + 1 : Nat) : Int) = a.out := by push_cast; exact_mod_cast ho
    exact_mod_cast this.symm
  have hr : r.val ≤ e / a.stride := by have := r.is_lt; omega
  have h3 : r.val * a.stride ≤ e := (Nat.le_div_iff_mul_le hs).mp hr
  have hkh := kh.is_lt
  refine ⟨⟨r.val * a.stride + kh.val, by omega⟩, ?_⟩
  unfold Axis.pos
  rw [hpad, hd]
  push_cast; ring

/-- A 4×4 image, 2×2 windows, stride 2, no padding. -/
def axisEx : Axis := ⟨4, 2, 0, 2, 1, 2⟩

theorem axisEx_pool : PoolAxis axisEx := ⟨⟨by decide, by decide⟩, rfl, by decide⟩

example (X : Fin 1 → Fin 1 → Fin axisEx.size → Fin axisEx.size → ℝ) : ∃ pick st' out,
    PoolSt.forward pick (fun _ => 0) { geo := geo axisEx axisEx }
      [⟨[((1 : Nat) : Int), ((1 : Nat) : Int), (axisEx.size : Int), (axisEx.size : Int)], flat4 X⟩]
      [⟨[((1 : Nat) : Int), ((1 : Nat) : Int), (axisEx.out : Int), (axisEx.out : Int)], List.replicate 4 7⟩] =
        .ok (st', flat4 out) ∧ ∀ n c r q, WindowMax axisEx axisEx (X n c) r q (out n c r q) := by
  obtain ⟨pick, hp⟩ := exists_pick
  obtain ⟨st', out, h1, h2⟩ := window_maximum_partial hp (fun _ => 0) axisEx_pool axisEx_pool
    (st := { geo := geo axisEx axisEx }) ⟨rfl, fun h => by simp at h⟩ X (List.replicate 4 7) (by simp [axisEx])
    (by intro k; rcases k with _ | _ | _ | _ | k <;> simp [axisEx]) (by decide)
  exact ⟨pick, st', out, h1, fun n c r q => h2 n c r q (.inl ⟨inside_of_no_padding axisEx_pool rfl (by decide) r,
    inside_of_no_padding axisEx_pool rfl (by decide) q⟩)⟩

/-! ## C35 -/

/-- The full claim: each output gradient goes to one pixel that attains the maximum of its window. -/
def MaxGradient : Prop :=
  ∀ (N C : Nat) (a b : Axis) (pick : List ℝ → Nat) (junk : Nat → ℝ) (st : PoolSt)
    (X : Fin N → Fin C → Fin a.size → Fin b.size → ℝ) (old : List ℝ)
    (G : Fin N → Fin C → Fin a.out → Fin b.out → ℝ) (A : Fin N → Fin C → Fin a.size → Fin b.size → ℝ),
    IsPick pick → PoolAxis a → PoolAxis b → Ready N C a b st → old.length = N * (C * (a.out * b.out)) →
    CountFits [(N : Int), C, a.out, b.out] → a.kernel * b.kernel * (a.out * b.out) ≤ 2147483647 →
    (∀ (r : Fin a.out) (q : Fin b.out), ∃ y x, Under a r y ∧ Under b q x) →
    ∃ (st' : PoolSt) (out : List ℝ) (st'' : PoolSt) (pos : Fin N → Fin C → Fin a.out → Fin b.out → Fin a.size × Fin b.size),
      st.forward pick junk [⟨[N, C, a.size, b.size], flat4 X⟩] [⟨[N, C, a.out, b.out], old⟩] = .ok (st', out) ∧
      (∀ n c r q, Under a r (pos n c r q).1 ∧ Under b q (pos n c r q).2 ∧
        WindowMax a b (X n c) r q (X n c (pos n c r q).1 (pos n c r q).2)) ∧
      st'.backward ⟨[N, C, a.out, b.out], flat4 G⟩ ⟨[N, C, a.size, b.size], flat4 A⟩ =
        .ok (st'', flat4 fun n c y x => A n c y x + ∑ r : Fin a.out, ∑ q : Fin b.out, if pos n c r q = (y, x) then G n c r q else 0)

/-- **C35** is false: in the example of `window_maximum_refuted` every output gradient is lost. -/
theorem max_gradient_refuted : ¬ MaxGradient := by
  intro h
  obtain ⟨pick, hp⟩ := exists_pick
  let X : Fin 1 → Fin 1 → Fin axisBad.size → Fin axisBad.size → ℝ := fun _ _ _ _ => -1
  have hst : Ready 1 1 axisBad axisBad { geo := geo axisBad axisBad } := ⟨rfl, fun h => by simp at h⟩
  have ho : (List.replicate 4 (0 : ℝ)).length = 1 * (1 * (axisBad.out * axisBad.out)) := by simp [axisBad]
  have hy : (0 : Nat) < axisBad.size := by decide
  have hu : ∀ r : Fin axisBad.out, Under axisBad r ⟨0, hy⟩ := fun r => by
    have hr := r.is_lt
    have hr' : r.val < 2 := hr
    refine ⟨⟨1 - r.val, show 1 - r.val < 2 by omega⟩, ?_⟩
    simp only [Axis.pos, axisBad]
    omega
  obtain ⟨st', out, st'', pos, h1, _, h2⟩ := h 1 1 axisBad axisBad pick (fun _ => 0) { geo := geo axisBad axisBad } X
    (List.replicate 4 0) (fun _ _ _ _ => 1) (fun _ _ _ _ => 0)
    hp axisBad_pool axisBad_pool hst ho bad_count (by decide) (fun r q => ⟨_, _, hu r, hu q⟩)
  obtain ⟨win, st3, hrem, hmax, -, h3⟩ := maxPooling_forward hp (fun _ => 0) axisBad_pool axisBad_pool hst X (List.replicate 4 0)
    ho bad_count (by decide)
  rw [h3] at h1
  obtain ⟨st4, _, h4⟩ := maxPooling_backward axisBad_pool axisBad_pool hrem (fun _ _ _ _ => 1) (fun _ _ _ _ => 0)
  rw [(Prod.mk.inj (Out.ok.inj h1)).1] at h4
  rw [h4] at h2
  have hg := congrFun (congrFun (congrFun (congrFun (flat4_inj (Prod.mk.inj (Out.ok.inj h2)).2) 0) 0) ⟨0, hy⟩) ⟨0, hy⟩
  have hl : ∀ r q : Fin axisBad.out, ¬ (axisBad.pos r (win 0 0 r q).1 = ((0 : Nat) : Int) ∧
      axisBad.pos q (win 0 0 r q).2 = ((0 : Nat) : Int)) := fun r q =>
    (bad_window (X 0 0) (fun _ _ => rfl) (win 0 0 r q) _ _ fun kh kw => hmax 0 0 _ _ kh kw).1 ⟨0, hy⟩ ⟨0, hy⟩
  have hpos : ∀ r q : Fin axisBad.out, pos 0 0 r q = ((⟨0, hy⟩, ⟨0, hy⟩) : Fin axisBad.size × Fin axisBad.size) := fun r q => by
    obtain ⟨y, x⟩ := pos 0 0 r q
    have h1 : y.val < 1 := y.is_lt
    have h2 : x.val < 1 := x.is_lt
    rw [Prod.mk.injEq]
    exact ⟨Fin.ext (by simp only; omega), Fin.ext (by simp only; omega)⟩
  simp only [hl, if_false, hpos, if_true, Finset.sum_const_zero, Finset.sum_const, Finset.card_univ, Fintype.card_fin] at hg
  simp [axisBad] at hg

/-- **C35**, the part that holds: if each window lies inside the image or covers a pixel larger than the
smallest positive normal float, each output gradient is added to exactly one pixel, which attains the maximum of its
window; gradients of overlapping windows add up and nothing else changes. -/
theorem max_gradient_partial {pick : List ℝ → Nat} (hp : IsPick pick) (junk : Nat → ℝ) (ha : PoolAxis a) (hb : PoolAxis b)
    {st : PoolSt} (hst : Ready N C a b st) (X : Fin N → Fin C → Fin a.size → Fin b.size → ℝ) (old : List ℝ)
    (ho : old.length = N * (C * (a.out * b.out)))
    (hf : CountFits [(N : Int), C, a.out, b.out]) (hf' : a.kernel * b.kernel * (a.out * b.out) ≤ 2147483647)
    (hwin : ∀ n c r q, (Inside a r ∧ Inside b q) ∨ ∃ y x, Under a r y ∧ Under b q x ∧ floatMin < X n c y x) :
    ∃ (st' : PoolSt) (out : List ℝ) (pos : Fin N → Fin C → Fin a.out → Fin b.out → Fin a.size × Fin b.size),
      st.forward pick junk [⟨[N, C, a.size, b.size], flat4 X⟩] [⟨[N, C, a.out, b.out], old⟩] = .ok (st', out) ∧
      (∀ n c r q, Under a r (pos n c r q).1 ∧ Under b q (pos n c r q).2 ∧
        WindowMax a b (X n c) r q (X n c (pos n c r q).1 (pos n c r q).2)) ∧
      ∀ (G : Fin N → Fin C → Fin a.out → Fin b.out → ℝ) (A : Fin N → Fin C → Fin a.size → Fin b.size → ℝ),
        ∃ st'', st'.backward ⟨[N, C, a.out, b.out], flat4 G⟩ ⟨[N, C, a.size, b.size], flat4 A⟩ =
          .ok (st'', flat4 fun n c y x => A n c y x + ∑ r : Fin a.out, ∑ q : Fin b.out, if pos n c r q = (y, x) then G n c r q else 0) := by
  obtain ⟨win, st', hrem, hmax, -, h⟩ := maxPooling_forward hp junk ha hb hst X old ho hf hf'
  have hpos : ∀ (n : Fin N) (c : Fin C) (r : Fin a.out) (q : Fin b.out), ∃ p : Fin a.size × Fin b.size, a.pos r (win n c r q).1 = p.1.val ∧
      b.pos q (win n c r q).2 = p.2.val := fun n c r q => by
    rcases window_cases (X n c) floatMin (win n c r q).1 (win n c r q).2 r q with ⟨y, x, hy, hx, _⟩ | ⟨hno, hv⟩
    · exact ⟨(y, x), hy, hx⟩
    · exfalso
      rcases hwin n c r q with ⟨h1, h2⟩ | ⟨y, x, ⟨kh, hkh⟩, ⟨kw, hkw⟩, hlt⟩
      · obtain ⟨y, hy⟩ := h1 (win n c r q).1
        obtain ⟨x, hx⟩ := h2 (win n c r q).2
        exact hno y x ⟨hy, hx⟩
      · have := hmax n c r q kh kw
        rw [window_inside hkh hkw, hv] at this
        linarith
  choose pos hpos1 hpos2 using hpos
  refine ⟨st', _, pos, h, fun n c r q => ⟨⟨_, hpos1 n c r q⟩, ⟨_, hpos2 n c r q⟩, ?_⟩, fun G A => ?_⟩
  · have hm := pool_max (X n c) r q (win n c r q) (fun kh kw => hmax n c r q kh kw)
      ((hwin n c r q).imp_right fun ⟨y, x, h1, h2, h3⟩ => ⟨y, x, h1, h2, h3.le⟩)
    rwa [window_inside (hpos1 n c r q) (hpos2 n c r q)] at hm
  · obtain ⟨st'', _, hb⟩ := maxPooling_backward ha hb hrem G A
    refine ⟨st'', hb.trans ?_⟩
    congr 3
    funext n c y x
    congr 1
    refine Finset.sum_congr rfl fun r _ => Finset.sum_congr rfl fun q _ => ?_
    rw [hpos1, hpos2]
    by_cases hyx : pos n c r q = (y, x)
    · rw [if_pos hyx, if_pos (by rw [hyx]; exact ⟨rfl, rfl⟩)]
    · rw [if_neg hyx, if_neg]
      rintro ⟨h1, h2⟩
      apply hyx
      refine Prod.ext (Fin.ext ?_) (Fin.ext ?_)
      · exact_mod_cast h1
      · exact_mod_cast h2

example (X : Fin 1 → Fin 1 → Fin axisEx.size → Fin axisEx.size → ℝ) : ∃ pick st' out,
    PoolSt.forward pick (fun _ => 0) { geo := geo axisEx axisEx }
      [⟨[((1 : Nat) : Int), ((1 : Nat) : Int), (axisEx.size : Int), (axisEx.size : Int)], flat4 X⟩]
      [⟨[((1 : Nat) : Int), ((1 : Nat) : Int), (axisEx.out : Int), (axisEx.out : Int)], List.replicate 4 7⟩] = .ok (st', out) ∧
    ∀ (G : Fin 1 → Fin 1 → Fin axisEx.out → Fin axisEx.out → ℝ) (A : Fin 1 → Fin 1 → Fin axisEx.size → Fin axisEx.size → ℝ),
      ∃ r, st'.backward ⟨[((1 : Nat) : Int), ((1 : Nat) : Int), (axisEx.out : Int), (axisEx.out : Int)], flat4 G⟩
      ⟨[((1 : Nat) : Int), ((1 : Nat) : Int), (axisEx.size : Int), (axisEx.size : Int)], flat4 A⟩ = .ok r := by
  obtain ⟨pick, hp⟩ := exists_pick
  obtain ⟨st', out, _, h1, _, h2⟩ := max_gradient_partial hp (fun _ => 0) axisEx_pool axisEx_pool
    (st := { geo := geo axisEx axisEx }) ⟨rfl, fun h => by simp at h⟩ X (List.replicate 4 7) (by simp [axisEx])
    (by intro k; rcases k with _ | _ | _ | _ | k <;> simp [axisEx]) (by decide)
    fun n c r q => .inl ⟨inside_of_no_padding axisEx_pool rfl (by decide) r,
      inside_of_no_padding axisEx_pool rfl (by decide) q⟩
  exact ⟨pick, st', out, h1, fun G A => ⟨_, (h2 G A).choose_spec⟩⟩

/-! ### The gradient of the pooling function -/

theorem maxPool_eq (X : Fin N → Fin C → Fin a.size → Fin b.size → ℝ) {fill : ℝ} {n : Fin N} {c : Fin C} {r : Fin a.out}
    {q : Fin b.out} (k : Fin a.kernel × Fin b.kernel)
    (h : ∀ kh kw, window a b (X n c) fill kh kw r q ≤ window a b (X n c) fill k.1 k.2 r q) :
    maxPool a b fill X n c r q = window a b (X n c) fill k.1 k.2 r q := by
  haveI : Nonempty (Fin a.kernel × Fin b.kernel) := ⟨k⟩
  exact le_antisymm (ciSup_le fun j => h j.1 j.2)
    (le_ciSup (f := fun j : Fin a.kernel × Fin b.kernel => window a b (X n c) fill j.1 j.2 r q)
      (Finite.bddAbove_range _) k)

theorem continuous_window (fill : ℝ) (n : Fin N) (c : Fin C) (kh : Fin a.kernel) (kw : Fin b.kernel) (r : Fin a.out)
    (q : Fin b.out) : Continuous fun y : Fin N × Fin C × Fin a.size × Fin b.size → ℝ =>
      window a b (arr4 y n c) fill kh kw r q := by
  unfold window pixel
  split
  · exact continuous_apply _
  · exact continuous_const

/-- Choosing one element of each window. -/
theorem select_backprop (fill : ℝ) (x : Fin N × Fin C × Fin a.size × Fin b.size → ℝ)
    (win : Fin N → Fin C → Fin a.out → Fin b.out → Fin a.kernel × Fin b.kernel) :
    Backprop (fun (y : Fin N × Fin C × Fin a.size × Fin b.size → ℝ)
      (p : Fin N × Fin C × Fin a.out × Fin b.out) => window a b (arr4 y p.1 p.2.1) fill
        (win p.1 p.2.1 p.2.2.1 p.2.2.2).1 (win p.1 p.2.1 p.2.2.1 p.2.2.2).2 p.2.2.1 p.2.2.2) x
      (fun g p => ∑ r : Fin a.out, ∑ q : Fin b.out,
        if a.pos r (win p.1 p.2.1 r q).1 = p.2.2.1.val ∧ b.pos q (win p.1 p.2.1 r q).2 = p.2.2.2.val
        then g (p.1, p.2.1, r, q) else 0) := by
  refine backprop_affine (fun y p => window a b (arr4 y p.1 p.2.1) 0
      (win p.1 p.2.1 p.2.2.1 p.2.2.2).1 (win p.1 p.2.1 p.2.2.1 p.2.2.2).2 p.2.2.1 p.2.2.2)
    (fun p => window a b (fun _ _ => 0) fill
      (win p.1 p.2.1 p.2.2.1 p.2.2.2).1 (win p.1 p.2.1 p.2.2.1 p.2.2.2).2 p.2.2.1 p.2.2.2)
    (fun y z p => ?_) (fun k y p => ?_) (fun y p => ?_) (fun g v => ?_)
  · exact pixel_add _ _ _ _
  · exact pixel_smul _ _ _ _
  · simp only [window, pixel]
    split <;> simp
  · simp only [Fintype.sum_prod_type]
    refine Finset.sum_congr rfl fun n _ => Finset.sum_congr rfl fun c _ => ?_
    have e : ∀ r : Fin a.out, ∀ q : Fin b.out, window a b (arr4 v n c) 0 (win n c r q).1 (win n c r q).2 r q =
        ∑ y : Fin a.size, ∑ x : Fin b.size, if a.pos r (win n c r q).1 = y.val ∧ b.pos q (win n c r q).2 = x.val
          then v (n, c, y, x) else 0 := fun r q => window_eq_sum a b _ _ _ r q
    simp only [e, Finset.mul_sum, Finset.sum_mul]
    have hsw : ∀ f : Fin a.out → Fin b.out → Fin a.size → Fin b.size → ℝ,
        ∑ r, ∑ q, ∑ y, ∑ x, f r q y x = ∑ y, ∑ x, ∑ r, ∑ q, f r q y x := fun f => by
      rw [← Fintype.sum_prod_type' (f := fun r q => ∑ y, ∑ x, f r q y x)]
      simp only [← Fintype.sum_prod_type' (f := fun y x => f _ _ y x)]
      rw [Finset.sum_comm, Fintype.sum_prod_type]
      simp only [Fintype.sum_prod_type]
    rw [hsw]
    refine Finset.sum_congr rfl fun y _ => Finset.sum_congr rfl fun x _ => Finset.sum_congr rfl fun r _ =>
      Finset.sum_congr rfl fun q _ => ?_
    split <;> simp

/-- Where pooling is differentiable, choosing any largest element of each window back-propagates. -/
theorem maxPool_backprop_of_differentiable (fill : ℝ) (x : Fin N × Fin C × Fin a.size × Fin b.size → ℝ)
    (hd : DifferentiableAt ℝ (fun (y : Fin N × Fin C × Fin a.size × Fin b.size → ℝ) (p : Fin N × Fin C × Fin a.out × Fin b.out) =>
        maxPool a b fill (arr4 y) p.1 p.2.1 p.2.2.1 p.2.2.2) x)
    (win : Fin N → Fin C → Fin a.out → Fin b.out → Fin a.kernel × Fin b.kernel)
    (hwin : ∀ n c r q kh kw, window a b (arr4 x n c) fill kh kw r q ≤
      window a b (arr4 x n c) fill (win n c r q).1 (win n c r q).2 r q) :
    Backprop (fun (y : Fin N × Fin C × Fin a.size × Fin b.size → ℝ) (p : Fin N × Fin C × Fin a.out × Fin b.out) =>
        maxPool a b fill (arr4 y) p.1 p.2.1 p.2.2.1 p.2.2.2) x
      (fun g p => ∑ r : Fin a.out, ∑ q : Fin b.out,
        if a.pos r (win p.1 p.2.1 r q).1 = p.2.2.1.val ∧ b.pos q (win p.1 p.2.1 r q).2 = p.2.2.2.val
        then g (p.1, p.2.1, r, q) else 0) := by
  obtain ⟨J, hJ, hg⟩ := select_backprop fill x win
  obtain ⟨J', hJ'⟩ := hd
  have : J' = J := by
    refine ContinuousLinearMap.ext fun v => funext fun p => ?_
    obtain ⟨n, c, r, q⟩ := p
    have h1 := hasFDerivAt_pi'.1 hJ' (n, c, r, q)
    have h2 := hasFDerivAt_pi'.1 hJ (n, c, r, q)
    have hmin : IsLocalMin (fun y => maxPool a b fill (arr4 y) n c r q -
        window a b (arr4 y n c) fill (win n c r q).1 (win n c r q).2 r q) x := by
      refine Filter.Eventually.of_forall fun y => ?_
      beta_reduce
      rw [maxPool_eq (arr4 x) (win n c r q) fun kh kw => hwin n c r q kh kw, sub_self]
      exact sub_nonneg.2 (le_ciSup (f := fun j : Fin a.kernel × Fin b.kernel => window a b (arr4 y n c) fill j.1 j.2 r q)
        (Finite.bddAbove_range _) (win n c r q))
    have := hmin.hasFDerivAt_eq_zero (h1.sub h2)
    exact sub_eq_zero.1 (DFunLike.congr_fun this v)
  exact ⟨J, this ▸ hJ', hg⟩

/-- Where each window has only one largest element, choosing it back-propagates. -/
theorem maxPool_backprop (fill : ℝ) (x : Fin N × Fin C × Fin a.size × Fin b.size → ℝ)
    (win : Fin N → Fin C → Fin a.out → Fin b.out → Fin a.kernel × Fin b.kernel)
    (hwin : ∀ n c r q k, k ≠ win n c r q → window a b (arr4 x n c) fill k.1 k.2 r q <
      window a b (arr4 x n c) fill (win n c r q).1 (win n c r q).2 r q) :
    Backprop (fun (y : Fin N × Fin C × Fin a.size × Fin b.size → ℝ) (p : Fin N × Fin C × Fin a.out × Fin b.out) =>
        maxPool a b fill (arr4 y) p.1 p.2.1 p.2.2.1 p.2.2.2) x
      (fun g p => ∑ r : Fin a.out, ∑ q : Fin b.out,
        if a.pos r (win p.1 p.2.1 r q).1 = p.2.2.1.val ∧ b.pos q (win p.1 p.2.1 r q).2 = p.2.2.2.val
        then g (p.1, p.2.1, r, q) else 0) := by
  obtain ⟨J, hJ, hg⟩ := select_backprop fill x win
  refine ⟨J, hJ.congr_of_eventuallyEq ?_, hg⟩
  have hev : ∀ᶠ y in nhds x, ∀ n c r q k, k ≠ win n c r q → window a b (arr4 y n c) fill k.1 k.2 r q <
      window a b (arr4 y n c) fill (win n c r q).1 (win n c r q).2 r q := by
    simp only [Filter.eventually_all]
    intro n c r q k hk
    exact ((continuous_window fill n c k.1 k.2 r q).continuousAt).eventually_lt
      ((continuous_window fill n c (win n c r q).1 (win n c r q).2 r q).continuousAt) (hwin n c r q k hk)
  filter_upwards [hev] with y hy
  funext p
  obtain ⟨n, c, r, q⟩ := p
  refine maxPool_eq (arr4 y) (win n c r q) fun kh kw => ?_
  by_cases hk : (kh, kw) = win n c r q
  · rw [← hk]
  · exact (hy n c r q (kh, kw) hk).le

/-- Where each window has only one largest element, pooling is differentiable. -/
theorem maxPool_differentiable (fill : ℝ) (x : Fin N × Fin C × Fin a.size × Fin b.size → ℝ)
    (huniq : ∀ n c (r : Fin a.out) (q : Fin b.out), ∃ k : Fin a.kernel × Fin b.kernel, ∀ j, j ≠ k →
      window a b (arr4 x n c) fill j.1 j.2 r q < window a b (arr4 x n c) fill k.1 k.2 r q) :
    DifferentiableAt ℝ (fun (y : Fin N × Fin C × Fin a.size × Fin b.size → ℝ) (p : Fin N × Fin C × Fin a.out × Fin b.out) =>
        maxPool a b fill (arr4 y) p.1 p.2.1 p.2.2.1 p.2.2.2) x := by
  choose win hwin using huniq
  obtain ⟨J, hJ, -⟩ := maxPool_backprop fill x win hwin
  exact hJ.differentiableAt

/-- **C35**, for every padding: the pass forward computes `maxPool`, and wherever that function is differentiable, the
pass backward adds its gradient. -/
theorem maxPooling_gradient {pick : List ℝ → Nat} (hp : IsPick pick) (junk : Nat → ℝ) (ha : PoolAxis a) (hb : PoolAxis b)
    {st : PoolSt} (hst : Ready N C a b st) (x : Fin N × Fin C × Fin a.size × Fin b.size → ℝ) (old : List ℝ)
    (ho : old.length = N * (C * (a.out * b.out)))
    (hf : CountFits [(N : Int), C, a.out, b.out]) (hf' : a.kernel * b.kernel * (a.out * b.out) ≤ 2147483647)
    (hd : DifferentiableAt ℝ (fun (y : Fin N × Fin C × Fin a.size × Fin b.size → ℝ) (p : Fin N × Fin C × Fin a.out × Fin b.out) =>
        maxPool a b floatMin (arr4 y) p.1 p.2.1 p.2.2.1 p.2.2.2) x) :
    ∃ (st' : PoolSt) (bwd : (Fin N × Fin C × Fin a.out × Fin b.out → ℝ) → (Fin N × Fin C × Fin a.size × Fin b.size → ℝ)),
      st.forward pick junk [⟨[N, C, a.size, b.size], flat4 (arr4 x)⟩] [⟨[N, C, a.out, b.out], old⟩] =
        .ok (st', flat4 (maxPool a b floatMin (arr4 x))) ∧
      Backprop (fun y p => maxPool a b floatMin (arr4 y) p.1 p.2.1 p.2.2.1 p.2.2.2) x bwd ∧
      ∀ g A, ∃ st'', st'.backward ⟨[N, C, a.out, b.out], flat4 (arr4 g)⟩ ⟨[N, C, a.size, b.size], flat4 (arr4 A)⟩ =
        .ok (st'', flat4 (arr4 (A + bwd g))) := by
  obtain ⟨win, st', hrem, hmax, -, h⟩ := maxPooling_forward hp junk ha hb hst (arr4 x) old ho hf hf'
  refine ⟨st', _, ?_, maxPool_backprop_of_differentiable floatMin x hd win hmax, fun g A => ?_⟩
  · rw [h]
    congr 3
    funext n c r q
    exact (maxPool_eq (arr4 x) (win n c r q) fun kh kw => hmax n c r q kh kw).symm
  · obtain ⟨st'', _, hb⟩ := maxPooling_backward ha hb hrem (arr4 g) (arr4 A)
    exact ⟨st'', hb⟩

/-- Each window of the example with pixels `4y + x` has only one largest element, the lower right one; hence pooling is
differentiable there. -/
example : DifferentiableAt ℝ (fun (y : Fin 1 × Fin 1 × Fin axisEx.size × Fin axisEx.size → ℝ)
    (p : Fin 1 × Fin 1 × Fin axisEx.out × Fin axisEx.out) => maxPool axisEx axisEx floatMin (arr4 y) p.1 p.2.1 p.2.2.1 p.2.2.2)
    (fun p => (4 * p.2.2.1.val + p.2.2.2.val : ℝ)) := by
  refine maxPool_differentiable floatMin _ ?_
  show ∀ (n c : Fin 1) (r q : Fin axisEx.out), ∃ k : Fin axisEx.kernel × Fin axisEx.kernel, ∀ j, j ≠ k →
    window axisEx axisEx (arr4 (fun p : Fin 1 × Fin 1 × Fin axisEx.size × Fin axisEx.size =>
      (4 * p.2.2.1.val + p.2.2.2.val : ℝ)) n c) floatMin j.1 j.2 r q <
    window axisEx axisEx (arr4 (fun p : Fin 1 × Fin 1 × Fin axisEx.size × Fin axisEx.size =>
      (4 * p.2.2.1.val + p.2.2.2.val : ℝ)) n c) floatMin k.1 k.2 r q
  intro n c r q
  have hk : (1 : Nat) < axisEx.kernel := by decide
  refine ⟨(⟨1, hk⟩, ⟨1, hk⟩), fun j hj => ?_⟩
  obtain ⟨⟨u, hu⟩, ⟨v, hv⟩⟩ := j
  have hr : r.val < 2 := r.is_lt
  have hq : q.val < 2 := q.is_lt
  have hu' : u < 2 := hu
  have hv' : v < 2 := hv
  have hne : ¬ (u = 1 ∧ v = 1) := fun h => hj (by simp [h.1, h.2])
  rw [window_inside (y := (⟨2 * r.val + u, by simp only [axisEx]; omega⟩ : Fin axisEx.size))
      (x := (⟨2 * q.val + v, by simp only [axisEx]; omega⟩ : Fin axisEx.size))
      (by simp only [Axis.pos, axisEx]; push_cast; omega) (by simp only [Axis.pos, axisEx]; push_cast; omega),
    window_inside (y := (⟨2 * r.val + 1, by simp only [axisEx]; omega⟩ : Fin axisEx.size))
      (x := (⟨2 * q.val + 1, by simp only [axisEx]; omega⟩ : Fin axisEx.size))
      (by simp only [Axis.pos, axisEx]; push_cast; omega) (by simp only [Axis.pos, axisEx]; push_cast; omega)]
  simp only [arr4]
  have : 4 * (2 * r.val + u) + (2 * q.val + v) < 4 * (2 * r.val + 1) + (2 * q.val + 1) := by omega
  exact_mod_cast this

end

end DW.Props.MaxPoolP

import Verif.Model.Loss
import Verif.Spec.Loss
import Verif.Lemmas.Matrix
/-! Lemmas about the loss and the metrics. -/

set_option autoImplicit false

namespace DW.LossL

open DW.Spec DW.MatL DW.Loss

theorem toInt_eq (x : ℝ) :
    toInt x = if -2147483648 ≤ trunc x ∧ trunc x ≤ 2147483647 then .ok (trunc x) else .ub .overflow := rfl

theorem toInt_natCast (k : Nat) (h : (k : Int) ≤ 2147483647) : toInt (k : ℝ) = .ok k := by
  have : trunc (k : ℝ) = k := by simp [trunc]
  rw [toInt_eq, this, if_pos ⟨by omega, h⟩]

/-- The indices a run computes. -/
noncomputable def indices (c : Int) (i : Nat) (ts : List ℝ) : List Int :=
  (ts.zipIdx i).map fun p => trunc p.1 + c * p.2

/-- All indices fit an `int`. -/
def Fits (c : Int) (i : Nat) (ts : List ℝ) : Prop :=
  ∀ p ∈ ts.zipIdx i, (-2147483648 ≤ trunc p.1 ∧ trunc p.1 ≤ 2147483647) ∧
    (-2147483648 ≤ trunc p.1 + c * p.2 ∧ trunc p.1 + c * p.2 ≤ 2147483647)

theorem matchTarget_eq (c : Int) : ∀ (ts : List ℝ) (i : Nat),
    (Fits c i ts → matchTarget c ts i = .ok (indices c i ts)) ∧
    (¬ Fits c i ts → matchTarget c ts i = .ub .overflow)
  | [], i => ⟨fun _ => rfl, fun h => absurd (by simp [Fits]) h⟩
  | t :: ts, i => by
    obtain ⟨ih1, ih2⟩ := matchTarget_eq c ts (i + 1)
    rw [matchTarget, toInt_eq]
    by_cases h1 : -2147483648 ≤ trunc t ∧ trunc t ≤ 2147483647
    · by_cases h2 : -2147483648 ≤ trunc t + c * i ∧ trunc t + c * i ≤ 2147483647
      · have hf : Fits c i (t :: ts) ↔ Fits c (i + 1) ts := by
          simp only [Fits, List.zipIdx_cons, List.mem_cons, forall_eq_or_imp]
          exact ⟨fun h => h.2, fun h => ⟨⟨h1, h2⟩, h⟩⟩
        rw [if_pos h1, Out.bind_ok, if_pos h2, hf]
        refine ⟨fun h => ?_, fun h => ?_⟩
        · rw [ih1 h]; simp [indices]
        · rw [ih2 h]; rfl
      · rw [if_pos h1, Out.bind_ok, if_neg h2]
        refine ⟨fun h => absurd (h (t, i) (by simp)).2 h2, fun _ => rfl⟩
    · rw [if_neg h1]
      exact ⟨fun h => absurd (h (t, i) (by simp)).1 h1, fun _ => rfl⟩

theorem at1d_eq (v : List ℝ) (k : Int) :
    (∀ x, at1d v k = .ok x ↔ 0 ≤ k ∧ v[k.toNat]? = some x) ∧ ∀ e, at1d v k ≠ .throw e := by
  unfold at1d
  by_cases h : 0 ≤ k
  · simp only [h, if_true, true_and, Out.idx]
    cases v[k.toNat]? <;> simp
  · simp [h]

theorem mapM_not_throw {α β : Type} {f : α → Out β} (h : ∀ a e, f a ≠ .throw e) (l : List α) (e : Exn) :
    l.mapM f ≠ .throw e := by
  induction l with
  | nil => simp
  | cons a l ih =>
    rw [List.mapM_cons]
    cases ha : f a with
    | ok b =>
      cases hl : l.mapM f with
      | ok r => simp
      | throw e' => rw [Out.bind_ok, Out.bind_throw]; rw [hl] at ih; exact ih
      | ub u => simp
    | throw e' => exact absurd ha (h _ _)
    | ub u => simp

theorem firstN_all (l : List ℝ) (k : Nat) (h : l.length = k) : firstN l k = .ok l := by
  subst h; simp [firstN]

/-- The checks of both functions. -/
theorem checks_eq (pred target : Buf) :
    (∀ B n, pred.shape = [B, n] → target.shape = [B, 1] → checks pred target = .ok (B, n)) ∧
    ((¬ ∃ B n, pred.shape = [B, n] ∧ target.shape = [B, 1]) → checks pred target = .throw .dw) := by
  refine ⟨fun B n h1 h2 => ?_, fun h => ?_⟩
  · simp [checks, dim, Out.idx, h1, h2]
  · rcases pred with ⟨s, v⟩
    rcases target with ⟨s', v'⟩
    unfold checks dim
    match s, s', h with
    | [], _, _ => simp [Out.check]
    | [_], _, _ => simp [Out.check]
    | _ :: _ :: _ :: _, _, _ => simp [Out.check]
    | [B, n], [], _ => simp [Out.check, Out.idx]
    | [B, n], [_], _ => simp [Out.check, Out.idx]
    | [B, n], _ :: _ :: _ :: _, _ => simp [Out.check, Out.idx]
    | [B, n], [b, o], h =>
      by_cases hb : b = B
      · by_cases ho : o = 1
        · subst hb ho; exact absurd ⟨b, n, rfl, rfl⟩ h
        · simp [Out.check, Out.idx, hb, ho]
      · simp [Out.check, Out.idx, hb]

section
variable {B n : Nat}

theorem forward_eq (P : Fin B → Fin n → ℝ) (T : Fin B → ℝ) :
    forward ⟨[B, n], rowMajor P⟩ ⟨[B, 1], List.ofFn T⟩ =
      (nllLoss (cpuLog (rowMajor P)) (List.ofFn T) B n >>= fun loss => .ok (loss, ⟨[B, n], cpuLog (rowMajor P)⟩)) := by
  unfold forward
  rw [(checks_eq _ _).1 B n rfl rfl, Out.bind_ok]
  have h1 : ((B : Int) * (n : Int)).toNat = B * n := by rw [← Int.natCast_mul]; exact Int.toNat_natCast _
  simp only [h1, Int.toNat_natCast]
  rw [firstN_all _ _ (by simp), Out.bind_ok, firstN_all _ _ (by simp), Out.bind_ok]

theorem indices_getElem (c : Int) (T : Fin B → ℝ) (i : Fin B) :
    (indices c 0 (List.ofFn T))[i.val]? = some (trunc (T i) + c * i.val) := by
  simp [indices, List.getElem?_ofFn, i.2]

theorem indices_length (c : Int) (i : Nat) (ts : List ℝ) : (indices c i ts).length = ts.length := by simp [indices]

theorem indices_eq (c : Int) (T : Fin B → ℝ) :
    indices c 0 (List.ofFn T) = List.ofFn fun i : Fin B => trunc (T i) + c * i.val := by
  apply List.ext_getElem?
  intro k
  by_cases hk : k < B
  · have := indices_getElem c T ⟨k, hk⟩
    rw [this]; simp [hk]
  · rw [List.getElem?_eq_none_iff.2 (by rw [indices_length]; simp; omega), List.getElem?_eq_none_iff.2 (by simp; omega)]

/-- All indices are inside the matrix. -/
def InRange (n : Nat) (T : Fin B → ℝ) : Prop :=
  ∀ i : Fin B, 0 ≤ trunc (T i) + (n : Int) * i.val ∧ trunc (T i) + (n : Int) * i.val < (B : Int) * n

theorem fits_of_inRange {T : Fin B → ℝ} (hsz : B * n ≤ 2147483647) (h : InRange n T) : Fits n 0 (List.ofFn T) := by
  intro p hp
  obtain ⟨k, hk, e⟩ := List.getElem_of_mem hp
  have hkB : k < B := by simpa using hk
  have hp : p = (T ⟨k, hkB⟩, k) := by rw [← e]; simp
  subst hp
  have := h ⟨k, hkB⟩
  simp only at this ⊢
  have hkn : (n : Int) * k ≤ B * n := by
    have : n * k ≤ B * n := by rw [Nat.mul_comm]; exact Nat.mul_le_mul_right _ (by omega)
    exact_mod_cast this
  have hsz' : (B : Int) * n ≤ 2147483647 := by exact_mod_cast hsz
  have h0 : (0 : Int) ≤ (n : Int) * k := by positivity
  omega

/-- Which runs of the index computation and the gather are defined. -/
theorem nllLoss_ok_iff (logs : List ℝ) (hl : logs.length = B * n) (hsz : B * n ≤ 2147483647) (T : Fin B → ℝ) :
    ((∃ x, nllLoss logs (List.ofFn T) B n = .ok x) ↔ InRange n T) ∧
    ∀ e, nllLoss logs (List.ofFn T) B n ≠ .throw e := by
  have hm := matchTarget_eq n (List.ofFn T) 0
  by_cases hf : Fits n 0 (List.ofFn T)
  · unfold nllLoss
    rw [hm.1 hf, Out.bind_ok]
    have hnt := mapM_not_throw (fun a e => (at1d_eq logs a).2 e) (indices n 0 (List.ofFn T))
    cases hr : (indices n 0 (List.ofFn T)).mapM (at1d logs) with
    | ok r =>
      simp only [Out.bind_ok]
      refine ⟨⟨fun _ i => ?_, fun _ => ⟨_, rfl⟩⟩, fun e => by simp⟩
      have hi := indices_getElem n T i
      have hlen : i.val < (indices n 0 (List.ofFn T)).length := by rw [indices_length]; simp
      have := Out.mapM_ok_getElem hr i.val hlen (by rw [Out.mapM_ok_length hr]; exact hlen)
      rw [List.getElem?_eq_getElem hlen] at hi
      rw [Option.some.inj hi] at this
      have h2 := ((at1d_eq _ _).1 _).1 this
      refine ⟨h2.1, ?_⟩
      have h3 := (List.getElem?_eq_some_iff.1 h2.2).1
      rw [hl] at h3
      have : ((B * n : Nat) : Int) = (B : Int) * n := by push_cast; rfl
      omega
    | throw e => exact absurd hr (hnt e)
    | ub u =>
      simp only [Out.bind_ub]
      refine ⟨⟨fun h => by simp at h, fun h => ?_⟩, fun e => by simp⟩
      have : (indices n 0 (List.ofFn T)).mapM (at1d logs) =
          .ok ((indices n 0 (List.ofFn T)).map fun k => logs.getD k.toNat 0) := by
        refine Out.mapM_eq_ok_of_forall fun k hk => ?_
        rw [indices_eq] at hk
        obtain ⟨i, rfl⟩ := (List.mem_ofFn' _ _).1 hk
        have hi := h i
        refine ((at1d_eq _ _).1 _).2 ⟨hi.1, ?_⟩
        have hlt : (trunc (T i) + (n : Int) * i.val).toNat < logs.length := by
          rw [hl]
          have : ((B * n : Nat) : Int) = (B : Int) * n := by push_cast; rfl
          omega
        rw [List.getD_eq_getElem?_getD, List.getElem?_eq_getElem hlt]; rfl
      rw [this] at hr
      simp at hr
  · unfold nllLoss
    rw [hm.2 hf, Out.bind_ub]
    exact ⟨⟨fun h => by simp at h, fun h => absurd (fits_of_inRange hsz h) hf⟩, fun e => by simp⟩

/-! ### Labels in range -/

/-- The label tensor of the classes `L`. -/
noncomputable def labelVals (L : Fin B → Fin n) : List ℝ := List.ofFn fun i => ((L i).val : ℝ)

theorem trunc_natCast (k : Nat) : trunc (k : ℝ) = k := by simp [trunc]

theorem inRange_labels (L : Fin B → Fin n) : InRange n fun i => ((L i).val : ℝ) := by
  intro i
  simp only [trunc_natCast]
  have h := index_lt i (L i)
  have : (((i.val * n + (L i).val : Nat)) : Int) < ((B * n : Nat) : Int) := by exact_mod_cast h
  push_cast at this
  constructor
  · positivity
  · rw [add_comm, mul_comm (n : Int)]; exact this

theorem slice_labels (hsz : B * n ≤ 2147483647) (L : Fin B → Fin n) :
    matchTarget n (labelVals L) 0 = .ok (List.ofFn fun i : Fin B => ((i.val * n + (L i).val : Nat) : Int)) := by
  rw [labelVals, (matchTarget_eq n _ 0).1 (fits_of_inRange hsz (inRange_labels L)), indices_eq]
  congr 2
  funext i
  rw [trunc_natCast]; push_cast; ring

theorem nllLoss_labels (hsz : B * n ≤ 2147483647) (Q : Fin B → Fin n → ℝ) (L : Fin B → Fin n) :
    nllLoss (rowMajor Q) (labelVals L) B n = .ok (-(∑ i, Q i (L i)) / B) := by
  unfold nllLoss
  rw [slice_labels hsz, Out.bind_ok]
  have : (List.ofFn fun i : Fin B => ((i.val * n + (L i).val : Nat) : Int)).mapM (at1d (rowMajor Q)) =
      .ok (List.ofFn fun i : Fin B => Q i (L i)) := by
    have h := Out.mapM_eq_ok_of_forall (f := at1d (rowMajor Q)) (g := fun k => (rowMajor Q).getD k.toNat 0)
      (l := List.ofFn fun i : Fin B => ((i.val * n + (L i).val : Nat) : Int)) (fun k hk => by
        obtain ⟨i, rfl⟩ := (List.mem_ofFn' _ _).1 hk
        refine ((at1d_eq _ _).1 _).2 ⟨by positivity, ?_⟩
        simp only [Int.toNat_natCast]
        rw [List.getD_eq_getElem?_getD, rowMajor_getElem?]; rfl)
    rw [h, List.map_ofFn]
    congr 2
    funext i
    simp only [Function.comp, Int.toNat_natCast]
    rw [List.getD_eq_getElem?_getD, rowMajor_getElem?]; rfl
  rw [this, Out.bind_ok, List.sum_ofFn]
  norm_num

/-- The scatter of the backward pass. -/
theorem scatter_spec (prob : List ℝ) : ∀ (ks : List Int) (g : List ℝ), g.length = prob.length →
    (∀ k ∈ ks, 0 ≤ k ∧ k.toNat < prob.length) →
    ∃ g', scatter prob ks g = .ok g' ∧ g'.length = g.length ∧
      ∀ (q : Nat) (p : ℝ), prob[q]? = some p →
        ((q : Int) ∈ ks → g'[q]? = some (-1 / p)) ∧ ((q : Int) ∉ ks → g'[q]? = g[q]?)
  | [], g, _, _ => ⟨g, rfl, rfl, fun q p _ => ⟨by simp, fun _ => rfl⟩⟩
  | k :: ks, g, hl, hk => by
    obtain ⟨h0, hlt⟩ := hk k (by simp)
    have e1 := ((at1d_eq prob k).1 prob[k.toNat]).2 ⟨h0, by rw [List.getElem?_eq_getElem hlt]⟩
    have hlt' : k.toNat < g.length := by omega
    have e2 := ((at1d_eq g k).1 g[k.toNat]).2 ⟨h0, by rw [List.getElem?_eq_getElem hlt']⟩
    obtain ⟨g', e, hlen, hq⟩ := scatter_spec prob ks (g.set k.toNat (-1 / prob[k.toNat])) (by simpa using hl)
      (fun k hk' => hk k (by simp [hk']))
    refine ⟨g', ?_, by simpa using hlen, fun q p hp => ?_⟩
    · rw [scatter, e1, Out.bind_ok, e2, Out.bind_ok, e]
    · obtain ⟨h1, h2⟩ := hq q p hp
      by_cases hm : (q : Int) ∈ ks
      · exact ⟨fun _ => h1 hm, fun h => absurd (by simp [hm]) h⟩
      · by_cases hqk : (q : Int) = k
        · subst hqk
          refine ⟨fun _ => ?_, fun h => absurd (by simp) h⟩
          have hp' := (List.getElem?_eq_some_iff.1 hp)
          rw [h2 hm]
          simp only [Int.toNat_natCast] at hlt' ⊢
          rw [List.getElem?_set_self hlt', hp'.2]
        · refine ⟨fun h => absurd h (by simp [hqk, hm]), fun _ => ?_⟩
          rw [h2 hm, List.getElem?_set_ne (by intro h; apply hqk; omega)]

theorem mem_slice (L : Fin B → Fin n) (i : Fin B) (j : Fin n) :
    ((i.val * n + j.val : Nat) : Int) ∈ (List.ofFn fun i : Fin B => ((i.val * n + (L i).val : Nat) : Int)) ↔ j = L i := by
  rw [List.mem_ofFn']
  constructor
  · rintro ⟨i', h⟩
    simp only at h
    have h' : i'.val * n + (L i').val = i.val * n + j.val := by exact_mod_cast h
    have hi : i' = i := by
      rw [← divNat_mk i' (L i') (index_lt _ _), ← divNat_mk i j (index_lt _ _)]
      simp only [h']
    subst hi
    apply Fin.ext; omega
  · rintro rfl; exact ⟨i, rfl⟩

end

end DW.LossL

import Verif.Lemmas.SampleModels
import Verif.Lemmas.Reload
import Verif.Props.Complete
/-!
# Networks given as tables

What has to be checked of a table so that the model constructed from it computes a network.
-/

set_option autoImplicit false

namespace DW.SampleL

open DW DW.Spec DW.Samples DW.GraphL DW.Props.GraphP

variable {e : Expr} {B : Nat} {input : List Nat} {l : List Step}

/-! ### The checks -/

/-- Arguments of placeholder `x`. -/
def argsAt (l : List Step) : Nat → List Nat
  | 0 => []
  | x + 1 => ((l[x]?).map Step.args).getD []

/-- Placeholder `y` is not computed from `x`, found with at most `k` steps back. -/
def apart (l : List Step) : Nat → Nat → Nat → Bool
  | 0, _, _ => false
  | k + 1, y, x => decide (y < x) || (y != x && (argsAt l y).all fun a => apart l k a x)

/-- All dimensions are positive and their product is at most `K`. -/
def small (K : Nat) (r : List Nat) : Bool := r.all (0 < ·) && decide (r.prod ≤ K)

def windowOk (k p st : Int) : Bool := decide (0 < k ∧ 0 ≤ p ∧ 0 < st)

/-- The layer fits its arguments if the batch size is at most `2147483647 / K`. -/
def fitsOk (K : Nat) (op : Op) (rs : List (List Nat)) (o : List Nat) : Bool :=
  match op, rs with
  | .softmax, [[n]] => decide (0 < n)
  | .linear u, [r] => decide (0 ≤ u ∧ r ≠ []) && small K r
  | .batchNorm1D _ _, [[n]] => small K [n]
  | .batchNorm2D _ _, [[C, H, W]] => small K [C, H, W]
  | .globalAvgPooling, [[_, H, W]] => decide (0 < H ∧ 0 < W)
  | .convolution c k p st, [[C, _, _]] => decide (0 ≤ c) && windowOk k.1 p.1 st.1 && windowOk k.2 p.2 st.2 &&
    (match o with
    | [c', oh, ow] => decide ((c' : Int) = c ∧ 0 < C * k.1.toNat * k.2.toNat * (oh * ow) ∧ C * k.1.toNat * k.2.toNat * (oh * ow) ≤ K)
    | _ => false)
  | .maxPooling k p st, [[C, _, _]] => windowOk k.1 p.1 st.1 && windowOk k.2 p.2 st.2 &&
    (match o with
    | [c', oh, ow] => small K o && decide (c' = C ∧ k.1.toNat * k.2.toNat * (oh * ow) ≤ K)
    | _ => false)
  | .relu, _ => true
  | .add, _ => true
  | _, _ => false

/-- All that has to be checked of a table. -/
structure Checked (K : Nat) (input : List Nat) (l : List Step) : Prop where
  some : 0 < l.length
  used : ((List.range l.length).all fun x => l.any fun s => s.args.contains x) = true
  order : (l.all fun s => decide (s.args.Pairwise fun a b => apart l (l.length + 1) b a = true)) = true
  sole : (l.zipIdx.all fun p => !p.1.op.overwrites || p.1.args.all fun y => y != l.length && l.zipIdx.all fun q =>
    !q.1.args.contains y || q.2 == p.2) = true
  names : (l.map Step.name).Nodup ∧ "" ∉ l.map Step.name ∨ ∀ n ∈ l.map Step.name, n = ""
  fits : (l.all fun s => fitsOk K s.op (s.args.map (restAt input l)) s.rest) = true
  small : small K input = true ∧ (l.all fun s => SampleL.small K s.rest) = true

theorem denseNet_checked : Checked 784 [784] (denseNet 10) := by
  constructor <;> decide +kernel

theorem iris_checked : Checked 100 [4] (denseNet 3) := by
  constructor <;> decide +kernel

theorem cifar10_checked : Checked 409600 [3, 32, 32] cifar10Net := by
  constructor <;> decide +kernel

theorem resnet_checked : Checked 147456 [3, 32, 32] resnet := by
  constructor <;> decide +kernel

/-! ### What follows -/

theorem argsAt_eq (h : IsNet e B input l) (x : Nat) : e.argsOf x = argsAt l x := by
  cases x with
  | zero => unfold Expr.argsOf; rw [net_callOf_zero h]; rfl
  | succ x =>
    cases hs : l[x]? with
    | some s => rw [net_argsOf h hs]; simp [argsAt, hs]
    | none =>
      unfold Expr.argsOf
      cases hc : e.callOf (x + 1) with
      | none => simp [argsAt, hs]
      | some c =>
        obtain ⟨h1, h2⟩ := net_callOf_inv h hc
        obtain rfl : x = c := by omega
        exact absurd h2 (by have := List.getElem?_eq_none_iff.1 hs; omega)

theorem not_needs (wf : WF e) (h : IsNet e B input l) (x : Nat) : ∀ k y, apart l k y x = true → ¬ Needs e y x
  | 0, _, hk => by cases hk
  | k + 1, y, hk => fun hn => by
    simp only [apart, Bool.or_eq_true, decide_eq_true_eq, Bool.and_eq_true, bne_iff_ne, List.all_eq_true] at hk
    rcases hk with hk | ⟨hne, hk⟩
    · have := Needs.le wf hn
      omega
    · cases hn with
      | refl => exact hne rfl
      | step hc ha hn =>
        refine not_needs wf h x k _ (hk _ ?_) hn
        rw [← argsAt_eq h]
        unfold Expr.argsOf
        rw [hc]
        exact ha

variable {K : Nat}

theorem net_orderly (hr : Reachable e) (h : IsNet e B input l) (hc : Checked K input l) : Orderly e [l.length] := by
  refine ⟨List.pairwise_singleton _ _, fun x _ => ?_⟩
  rw [argsAt_eq h]
  cases x with
  | zero => exact List.Pairwise.nil
  | succ x =>
    cases hs : l[x]? with
    | none => simp [argsAt, hs]
    | some s =>
      have := List.all_eq_true.1 hc.order s (List.mem_of_getElem? hs)
      rw [decide_eq_true_eq] at this
      simp only [argsAt, hs, Option.map_some, Option.getD_some]
      refine this.imp ?_
      intro a b hab _
      exact not_needs (reachable_wf hr) h _ _ _ hab

theorem net_needed (hr : Reachable e) (h : IsNet e B input l) (hc : Checked K input l) {x : Nat} (hx : x ≤ l.length) :
    NeededBy e [l.length] x := by
  have wf := reachable_wf hr
  have : ∀ d x, x + d = l.length → Needs e l.length x := by
    intro d
    induction d using Nat.strong_induction_on with
    | _ d ih =>
      intro x hd
      rcases Nat.eq_zero_or_pos d with rfl | hpos
      · obtain rfl : x = l.length := by omega
        exact .refl _
      · have := List.all_eq_true.1 hc.used x (List.mem_range.2 (by omega))
        obtain ⟨s, hs, hxs⟩ := List.any_eq_true.1 this
        obtain ⟨i, hi⟩ := List.getElem?_of_mem hs
        have hi' := (List.getElem?_eq_some_iff.1 hi).1
        have hmem : x ∈ e.callArgs i := by rw [net_callArgs h hi]; simpa using hxs
        have hlt := wf.arg_lt _ _ (net_callOf h hi') _ hmem
        have := ih (l.length - (i + 1)) (by omega) (i + 1) (by omega)
        exact Needs.trans this (.step (net_callOf h hi') hmem (.refl _))
  exact ⟨_, List.mem_singleton.2 rfl, this (l.length - x) x (by omega)⟩

theorem net_takesPart (hr : Reachable e) (h : IsNet e B input l) (hc : Checked K input l) :
    ∀ x ∈ [0] ++ [l.length], TakesPart e [l.length] x := by
  intro x hx
  have hpos := hc.some
  rcases List.mem_append.1 hx with hx | hx <;> obtain rfl := List.mem_singleton.1 hx
  · have := List.all_eq_true.1 hc.used 0 (List.mem_range.2 hpos)
    obtain ⟨s, hs, hxs⟩ := List.any_eq_true.1 this
    obtain ⟨i, hi⟩ := List.getElem?_of_mem hs
    have hi' := (List.getElem?_eq_some_iff.1 hi).1
    exact ⟨i, ⟨i + 1, net_callOf h hi', net_needed hr h hc hi'⟩, .inr (by rw [net_callArgs h hi]; simpa using hxs)⟩
  · obtain ⟨n, hn⟩ : ∃ n, l.length = n + 1 := ⟨l.length - 1, by omega⟩
    refine ⟨n, ⟨l.length, ?_, net_needed hr h hc (le_refl _)⟩, .inl ?_⟩ <;> (have := net_callOf h (i := n) (by omega); rwa [← hn] at this)

/-- The model can be constructed, whatever order the topological sort chooses. -/
theorem net_ctor {topo : Graph → List Node} (hr : Reachable e) (h : IsNet e B input l) (hc : Checked K input l)
    (hs : SortsCorrectly topo e [0] [l.length]) : ∃ m e', modelCtor topo [0] [l.length] e = (.ok m, e') := by
  have wf := reachable_wf hr
  have ho : ∀ x ∈ [l.length], x < e.phs.length := by
    intro x hx
    obtain rfl := List.mem_singleton.1 hx
    rw [net_phs_length h]; omega
  have hp := net_takesPart hr h hc
  have hcall : ∀ c, NeededCall e [l.length] c → c < l.length := fun c ⟨x, hx, _⟩ => (net_callOf_inv h hx).2
  rcases hc.names with ⟨hnd, hne⟩ | hall
  · obtain ⟨g, hg⟩ := build_ok_of wf ho hp
    obtain ⟨h1, -⟩ := names_unique_iff hr ho hs hg
    have htopo := hs g hg
    have hneed : ∀ c ∈ sortedOps (topo g), c < l.length := fun c hc =>
      hcall c ((mem_opNodes hg c).1 ((htopo.op c).1 (mem_sortedOps.1 hc)))
    have hname : ∀ c, c < l.length → ∀ ops, (l.map Step.name)[c]? = some (finalName e ops (e.callInfo c)) := fun c hc ops => by
      obtain ⟨s, hs⟩ : ∃ s, l[c]? = some s := ⟨_, List.getElem?_eq_getElem hc⟩
      have hn := (net_info h hs).1
      have : s.name ≠ "" := fun h0 => hne (h0 ▸ List.mem_map_of_mem (List.mem_of_getElem? hs))
      rw [net_callInfo h hc, finalName]
      simp only [hn, this, if_false]
      rw [List.getElem?_map, hs]; rfl
    obtain ⟨m, e', hm, -⟩ := h1 (by
      apply List.Nodup.map_on _ (nodup_sortedOps htopo.nodup)
      intro c hc d hd hcd
      have e1 := hname c (hneed c hc) (sortedOps (topo g))
      have e2 := hname d (hneed d hd) (sortedOps (topo g))
      rw [hcd, ← e2] at e1
      exact (List.getElem?_inj (by simpa using hneed c hc) hnd).1 e1)
    exact ⟨m, e', hm⟩
  · refine unnamed_never_clash hr ho hs hp (fun c hc => ?_) fun c d hc hd hcd => ?_
    · have hc := hcall c hc
      obtain ⟨s, hs⟩ : ∃ s, l[c]? = some s := ⟨_, List.getElem?_eq_getElem hc⟩
      rw [net_callInfo h hc, (net_info h hs).1]
      exact hall _ (List.mem_map_of_mem (List.mem_of_getElem? hs))
    · rwa [net_callInfo h (hcall c hc), net_callInfo h (hcall d hd)] at hcd

variable {topo : Graph → List Node} {m : Model} {e' : Expr}

/-- All placeholders take part in the model. -/
theorem net_data (hr : Reachable e) (h : IsNet e B input l) (hc : Checked K input l) (hs : SortsCorrectly topo e [0] [l.length])
    (hm : modelCtor topo [0] [l.length] e = (.ok m, e')) (x : Nat) : x ∈ dataOf m ↔ x ≤ l.length := by
  have wf := reachable_wf hr
  obtain ⟨g, hg, hmg, -⟩ := ctor_maps hr hm
  rw [ReloadL.mem_dataOf hr hs hm, hmg, takesPart_of_ok wf hg]
  constructor
  · rintro ⟨c, ⟨y, hy, -⟩, hx | hx⟩
    · have := net_callOf_inv h hx
      omega
    · have h1 := net_callOf_inv h hy
      have := wf.arg_lt _ _ hy _ hx
      omega
  · intro hx
    cases x with
    | zero => exact net_takesPart hr h hc 0 (by simp)
    | succ x => exact ⟨x, ⟨x + 1, net_callOf h hx, net_needed hr h hc hx⟩, .inl (net_callOf h hx)⟩

theorem net_sound (hr : Reachable e) (h : IsNet e B input l) (hc : Checked K input l) (hs : SortsCorrectly topo e [0] [l.length])
    (hm : modelCtor topo [0] [l.length] e = (.ok m, e')) : Sound e m [0] [l.length] := by
  refine ⟨fun y hy => ?_, fun y hy hn => ?_, fun y hy => ?_, List.nodup_singleton _, List.nodup_singleton _⟩
  · obtain rfl := List.mem_singleton.1 hy
    exact net_callOf_zero h
  · cases y with
    | zero => simp
    | succ y =>
      have := (net_data hr h hc hs hm (y + 1)).1 hy
      rw [net_callOf h this] at hn
      cases hn
  · obtain rfl := List.mem_singleton.1 hy
    have := hc.some
    obtain ⟨n, hn⟩ : ∃ n, l.length = n + 1 := ⟨l.length - 1, by omega⟩
    rw [hn, net_callOf h (by omega)]
    rfl

theorem net_sole (h : IsNet e B input l) (hc : Checked K input l) : SoleConsumer e m [l.length] := by
  rintro x y ⟨-, -, ⟨c, hcx, hov⟩, hy⟩
  obtain ⟨rfl, hlt⟩ := net_callOf_inv h hcx
  obtain ⟨s, hs⟩ : ∃ s, l[c]? = some s := ⟨_, List.getElem?_eq_getElem hlt⟩
  rw [net_callInfo h hlt, (net_info h hs).2] at hov
  rw [net_argsOf h hs] at hy
  have := List.all_eq_true.1 hc.sole (s, c) (List.mem_zipIdx_iff_getElem?.2 hs)
  simp only [hov, Bool.not_true, Bool.false_or, List.all_eq_true, Bool.and_eq_true, bne_iff_ne, Bool.or_eq_true, Bool.not_eq_true',
    beq_iff_eq] at this
  obtain ⟨h1, h2⟩ := this y hy
  refine ⟨by simpa using h1, fun x' hx' hy' => ?_⟩
  rw [argsAt_eq h] at hy'
  cases x' with
  | zero => cases hy'
  | succ x' =>
    cases hs' : l[x']? with
    | none => simp [argsAt, hs'] at hy'
    | some s' =>
      simp only [argsAt, hs', Option.map_some, Option.getD_some] at hy'
      rcases h2 (s', x') (List.mem_zipIdx_iff_getElem?.2 hs') with h3 | h3
      · simp at h3
        exact absurd hy' h3
      · simp only at h3
        omega

/-! ### Shapes -/

theorem small_static (r : List Nat) : Static (r.map fun n : Nat => (n : Int)) := by
  intro d hd
  obtain ⟨n, -, rfl⟩ := List.mem_map.1 hd
  exact Int.natCast_nonneg n

theorem prod_cast (r : List Nat) : (r.map fun n : Nat => (n : Int)).prod = ((r.prod : Nat) : Int) := by
  induction r with
  | nil => rfl
  | cons a r ih => rw [List.map_cons, List.prod_cons, ih, List.prod_cons, Nat.cast_mul]

theorem take_prod_le {r : List Nat} (h : ∀ n ∈ r, 0 < n) (k : Nat) : (r.take k).prod ≤ r.prod := by
  rw [← List.prod_take_mul_prod_drop r k]
  exact Nat.le_mul_of_pos_right _ (List.prod_pos fun n hn => h n (List.mem_of_mem_drop hn))

theorem countFits_nat {r : List Nat} (h : ∀ n ∈ r, 0 < n) (hp : r.prod ≤ 2147483647) : CountFits (r.map fun n : Nat => (n : Int)) := by
  intro k
  rw [← List.map_take, prod_cast]
  have := take_prod_le h k
  exact_mod_cast this.trans hp

theorem small_fits {r : List Nat} (hr : small K r = true) (hB : 0 < B) (hK : B * K ≤ 2147483647) : CountFits (batchOf B r) := by
  simp only [small, Bool.and_eq_true, List.all_eq_true, decide_eq_true_eq] at hr
  refine countFits_nat (r := B :: r) (by simpa [hB] using hr.1) ?_
  rw [List.prod_cons]
  exact (Nat.mul_le_mul_left B hr.2).trans hK

theorem small_fits' {r : List Nat} (hr : small K r = true) (hB : 0 < B) (hK : B * K ≤ 2147483647) :
    CountFits (r.map fun n : Nat => (n : Int)) := by
  simp only [small, Bool.and_eq_true, List.all_eq_true, decide_eq_true_eq] at hr
  exact countFits_nat (by simpa using hr.1) ((hr.2.trans (Nat.le_mul_of_pos_left K hB)).trans hK)

theorem window_fits {k p st : Int} (h : windowOk k p st = true) : WindowFits k p st := by
  simp only [windowOk, decide_eq_true_eq] at h
  exact h

theorem fits_of_ok {real : F32 → ℝ} {op : Op} {rs : List (List Nat)} {o : List Nat} (h : fitsOk K op rs o = true) (he : EpsPos real op)
    (hB : 0 < B) (hK : B * K ≤ 2147483647) : Fits real op (rs.map (batchOf B)) (batchOf B o) := by
  unfold fitsOk at h
  split at h
  · exact ⟨B, _, rfl, by simpa using h⟩
  · rename_i u r
    simp only [Bool.and_eq_true, decide_eq_true_eq] at h
    exact ⟨h.1.1, B, _, rfl, by simpa using h.1.2, small_static _, small_fits' h.2 hB hK⟩
  · exact ⟨he, B, _, rfl, small_fits' h hB hK, small_fits h hB hK⟩
  · rename_i C H W
    refine ⟨he, B, C, H, W, rfl, ?_, ?_, ?_⟩
    · simp only [small, Bool.and_eq_true, List.all_eq_true, decide_eq_true_eq] at h
      have := h.1 C (by simp)
      omega
    · refine small_fits' (r := [C]) (K := K) ?_ hB hK
      simp only [small, Bool.and_eq_true, List.all_eq_true, decide_eq_true_eq, List.mem_cons, List.not_mem_nil, or_false, forall_eq_or_imp,
        forall_eq, List.prod_cons, List.prod_nil, mul_one] at h ⊢
      refine ⟨h.1.1, le_trans ?_ h.2⟩
      exact Nat.le_mul_of_pos_right _ (Nat.mul_pos h.1.2.1 h.1.2.2)
    · refine small_fits (r := [H, W, C]) (K := K) ?_ hB hK
      simp only [small, Bool.and_eq_true, List.all_eq_true, decide_eq_true_eq, List.mem_cons, List.not_mem_nil, or_false, forall_eq_or_imp,
        forall_eq, List.prod_cons, List.prod_nil, mul_one] at h ⊢
      refine ⟨⟨h.1.2.1, h.1.2.2, h.1.1⟩, le_trans (le_of_eq ?_) h.2⟩
      ring
  · rename_i C H W
    rw [decide_eq_true_eq] at h
    exact ⟨B, C, H, W, rfl, h.1, h.2⟩
  · rename_i c k p st C H W
    simp only [Bool.and_eq_true, decide_eq_true_eq] at h
    obtain ⟨⟨⟨h1, h2⟩, h3⟩, h4⟩ := h
    split at h4
    · rename_i c' oh ow
      rw [decide_eq_true_eq] at h4
      obtain ⟨h4, h5, h6⟩ := h4
      refine ⟨h1, window_fits h2, window_fits h3, B, C, H, W, oh, ow, rfl, ?_, Nat.mul_pos hB h5, (Nat.mul_le_mul_left B h6).trans hK⟩
      rw [← h4]; rfl
    · cases h4
  · rename_i k p st C H W
    simp only [Bool.and_eq_true] at h
    obtain ⟨⟨h2, h3⟩, h4⟩ := h
    split at h4
    · rename_i c' oh ow
      simp only [Bool.and_eq_true, decide_eq_true_eq] at h4
      obtain ⟨h4, rfl, h6⟩ := h4
      exact ⟨window_fits h2, window_fits h3, B, c', H, W, oh, ow, rfl, rfl, small_fits h4 hB hK,
        (h6.trans (Nat.le_mul_of_pos_left K hB)).trans hK⟩
    · cases h4
  · trivial
  · trivial
  · cases h

theorem net_call_inv (hr : Reachable e) (h : IsNet e B input l) {x c : Nat} (hcx : e.callOf x = some c) : ∃ s, l[c]? = some s ∧
    x = c + 1 ∧ (infoOf e (e.callInfo c)).op = s.op ∧ e.callInfo c = c ∧
    (e.argsOf x).map (phShape e) = (s.args.map (restAt input l)).map (batchOf B) ∧ phShape e x = batchOf B s.rest := by
  obtain ⟨rfl, hlt⟩ := net_callOf_inv h hcx
  obtain ⟨s, hs⟩ : ∃ s, l[c]? = some s := ⟨_, List.getElem?_eq_getElem hlt⟩
  refine ⟨s, hs, rfl, ?_, net_callInfo h hlt, ?_, ?_⟩
  · rw [net_callInfo h hlt, (net_info h hs).2]
  · rw [net_argsOf h hs, List.map_map]
    refine List.map_congr_left fun a ha => net_phShape h ?_
    have := (reachable_wf hr).arg_lt _ _ hcx a (by rw [net_callArgs h hs]; exact ha)
    omega
  · rw [net_phShape h (by omega)]
    simp [restAt, hs]

theorem net_built {real : F32 → ℝ} {tensors : Nat → InfoTensors} (hr : Reachable e) (h : IsNet e B input l) (hc : Checked K input l)
    (hs : SortsCorrectly topo e [0] [l.length]) (hm : modelCtor topo [0] [l.length] e = (.ok m, e')) (hB : 0 < B)
    (hK : B * K ≤ 2147483647) (he : ∀ s ∈ l, EpsPos real s.op) (ht : NetTensors B input l tensors) :
    ∃ (L : Layers e) (θ : L.Params), Built topo e [0] [l.length] m real tensors L θ := by
  refine Props.BackendP.built_exists hr hs ⟨e', hm⟩ (net_orderly hr h hc) (net_sound hr h hc hs hm) (fun y hy _ => ?_)
    ⟨fun x hx c hcx => ?_, fun x hx c hcx => ?_⟩
  · have hy := (net_data hr h hc hs hm y).1 hy
    rw [net_phShape h hy]
    have : small K (restAt input l y) = true := by
      cases y with
      | zero => exact hc.small.1
      | succ y =>
        have hy : y < l.length := hy
        have := List.all_eq_true.1 hc.small.2 l[y] (List.getElem_mem hy)
        simpa [restAt, List.getElem?_eq_getElem hy] using this
    exact ⟨small_static (B :: restAt input l y), small_fits this hB hK⟩
  · obtain ⟨s, hs', -, hop, -, hsh, ho⟩ := net_call_inv hr h hcx
    rw [hop, hsh, ho]
    have hmem := List.mem_of_getElem? hs'
    exact fits_of_ok (List.all_eq_true.1 hc.fits s hmem) (he s hmem) hB hK
  · obtain ⟨s, hs', -, hop, hi, hsh, ho⟩ := net_call_inv hr h hcx
    rw [hop, hsh, hi, List.map_map]
    exact ht c s hs'

end DW.SampleL

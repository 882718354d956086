import Verif.Model.Parallel
import Verif.Lemmas.Conv
/-! # Programs with disjoint footprints -/

set_option autoImplicit false

namespace DW.ParL

open DW.Par

noncomputable section

variable {A V : Type} [DecidableEq A]

/-- The program reads only elements of `R` and writes only elements of `W`, whatever it reads. -/
def Within (R W : Set A) : Prog A V → Prop
  | .done => True
  | .read a k => a ∈ R ∧ ∀ v, Within R W (k v)
  | .write a _ k => a ∈ W ∧ Within R W k

theorem Within.mono {R W R' W' : Set A} {p : Prog A V} (h : Within R W p) (hR : R ⊆ R') (hW : W ⊆ W') : Within R' W' p := by
  induction p with
  | done => trivial
  | read a k ih => exact ⟨hR h.1, fun v => ih v (h.2 v)⟩
  | write a v k ih => exact ⟨hW h.1, ih h.2⟩

theorem Within.andThen {R W : Set A} {p q : Prog A V} (h : Within R W p) (hq : Within R W q) : Within R W (p.andThen q) := by
  induction p with
  | done => exact hq
  | read a k ih => exact ⟨h.1, fun v => ih v (h.2 v)⟩
  | write a v k ih => exact ⟨h.1, ih h.2⟩

theorem Within.seq {R W : Set A} {ps : List (Prog A V)} (h : ∀ p ∈ ps, Within R W p) : Within R W (seq ps) := by
  induction ps with
  | nil => trivial
  | cons p ps ih => exact (h p (by simp)).andThen (ih fun q hq => h q (by simp [hq]))

theorem run_andThen (p q : Prog A V) (m : A → V) : run (p.andThen q) m = run q (run p m) := by
  induction p generalizing m with
  | done => rfl
  | read a k ih => exact ih _ m
  | write a v k ih => exact ih _

theorem run_frame {R W : Set A} {p : Prog A V} (h : Within R W p) (m : A → V) {a : A} (ha : a ∉ W) : run p m a = m a := by
  induction p generalizing m with
  | done => rfl
  | read b k ih => exact ih _ (h.2 _) m
  | write b v k ih =>
    unfold run
    rw [ih h.2, Function.update_of_ne]
    rintro rfl
    exact ha h.1

theorem run_congr {R W : Set A} {p : Prog A V} (h : Within R W p) {m m' : A → V} (he : ∀ a, a ∈ R ∨ a ∈ W → m a = m' a)
    {a : A} (ha : a ∈ R ∨ a ∈ W) : run p m a = run p m' a := by
  induction p generalizing m m' with
  | done => exact he a ha
  | read b k ih =>
    unfold run
    rw [he b (.inl h.1)]
    exact ih _ (h.2 _) he
  | write b v k ih =>
    unfold run
    refine ih h.2 fun c hc => ?_
    by_cases hcb : c = b
    · subst hcb; simp
    · rw [Function.update_of_ne hcb, Function.update_of_ne hcb, he c hc]

/-- No program writes what another one accesses. -/
def Apart {ι : Type} (R W : ι → Set A) (l : List ι) : Prop :=
  ∀ i ∈ l, ∀ j ∈ l, i ≠ j → ∀ a ∈ W i, a ∉ R j ∧ a ∉ W j

/-- `m'` has, where program `i` writes, what it leaves there when run alone on `m`, and is `m` elsewhere. -/
structure Merged {ι : Type} (p : ι → Prog A V) (W : ι → Set A) (l : List ι) (m m' : A → V) : Prop where
  own : ∀ i ∈ l, ∀ a ∈ W i, m' a = run (p i) m a
  rest : ∀ a, (∀ i ∈ l, a ∉ W i) → m' a = m a

theorem Merged.unique {ι : Type} {p : ι → Prog A V} {W : ι → Set A} {l l' : List ι} {m m1 m2 : A → V}
    (h1 : Merged p W l m m1) (h2 : Merged p W l' m m2) (hl : ∀ i, i ∈ l ↔ i ∈ l') : m1 = m2 := by
  funext a
  by_cases h : ∃ i ∈ l, a ∈ W i
  · obtain ⟨i, hi, ha⟩ := h
    rw [h1.own i hi a ha, h2.own i ((hl i).1 hi) a ha]
  · rw [h1.rest a fun i hi ha => h ⟨i, hi, ha⟩, h2.rest a fun i hi ha => h ⟨i, (hl i).2 hi, ha⟩]

theorem seq_merged {ι : Type} {p : ι → Prog A V} {R W : ι → Set A} {l : List ι} (hn : l.Nodup)
    (hw : ∀ i ∈ l, Within (R i) (W i) (p i)) (hap : Apart R W l) (m : A → V) : Merged p W l m (run (seq (l.map p)) m) := by
  induction l generalizing m with
  | nil => exact ⟨fun i hi => by simp at hi, fun _ _ => rfl⟩
  | cons i l ih =>
    rw [List.map_cons, seq, run_andThen]
    obtain ⟨hi, hn'⟩ := List.nodup_cons.mp hn
    obtain ⟨h1, h2⟩ := ih hn' (fun j hj => hw j (by simp [hj]))
      (fun j hj k hk => hap j (by simp [hj]) k (by simp [hk])) (run (p i) m)
    have hne : ∀ j ∈ l, j ≠ i := fun j hj h => hi (h ▸ hj)
    constructor
    · intro j hj a ha
      rcases List.mem_cons.mp hj with rfl | hj
      · exact h2 a fun k hk hak => (hap k (by simp [hk]) j (by simp) (hne k hk) a hak).2 ha
      · rw [h1 j hj a ha]
        refine run_congr (hw j (by simp [hj])) (fun b hb => ?_) (.inr ha)
        refine run_frame (hw i (by simp)) m fun hbi => ?_
        have := hap i (by simp) j (by simp [hj]) (Ne.symm (hne j hj)) b hbi
        exact hb.elim this.1 this.2
    · intro a ha
      rw [h2 a fun j hj => ha j (by simp [hj])]
      exact run_frame (hw i (by simp)) m (ha i (by simp))

/-! ### Interleavings -/

/-- The number of accesses of a program run alone. -/
def len : Prog A V → (A → V) → Nat
  | .done, _ => 0
  | .read a k, m => len (k (m a)) m + 1
  | .write a v k, m => len k (Function.update m a v) + 1

theorem len_congr {R W : Set A} {p : Prog A V} (h : Within R W p) {m m' : A → V} (he : ∀ a, a ∈ R ∨ a ∈ W → m a = m' a) :
    len p m = len p m' := by
  induction p generalizing m m' with
  | done => rfl
  | read b k ih =>
    unfold len
    rw [he b (.inl h.1), ih _ (h.2 _) he]
  | write b v k ih =>
    unfold len
    rw [ih h.2 (m' := Function.update m' b v) fun c hc => ?_]
    by_cases hcb : c = b
    · subst hcb; simp
    · rw [Function.update_of_ne hcb, Function.update_of_ne hcb, he c hc]

variable {T : Nat}

/-- What holds during the execution of `p` from `m0`. -/
structure Inv (p : Fin T → Prog A V) (R W : Fin T → Set A) (m0 : A → V) (n : Nat) (c : Config A T V) : Prop where
  within : ∀ t, Within (R t) (W t) (c.thread t)
  own : ∀ t, ∀ a ∈ W t, run (c.thread t) c.mem a = run (p t) m0 a
  rest : ∀ a, (∀ t, a ∉ W t) → c.mem a = m0 a
  count : n + ∑ t, len (c.thread t) c.mem = ∑ t, len (p t) m0

theorem sum_update (f : Fin T → Nat) (t : Fin T) (x : Nat) (h : f t = x + 1) :
    ∑ s, Function.update f t x s + 1 = ∑ s, f s := by
  rw [← Finset.add_sum_erase _ _ (Finset.mem_univ t), ← Finset.add_sum_erase _ f (Finset.mem_univ t), Function.update_self, h]
  have : ∑ s ∈ Finset.univ.erase t, Function.update f t x s = ∑ s ∈ Finset.univ.erase t, f s :=
    Finset.sum_congr rfl fun s hs => Function.update_of_ne (Finset.ne_of_mem_erase hs) _ _
  rw [this]; omega

theorem Inv.step {p : Fin T → Prog A V} {R W : Fin T → Set A} {m0 : A → V} {n : Nat} {c d : Config A T V}
    (hap : ∀ s t, s ≠ t → ∀ a ∈ W s, a ∉ R t ∧ a ∉ W t) (h : Inv p R W m0 n c) (hs : Step c d) : Inv p R W m0 (n + 1) d := by
  have key : ∀ (t : Fin T) (q : Prog A V) (m : A → V), Within (R t) (W t) q → (∀ a, a ∉ W t → m a = c.mem a) →
      run q m = run (c.thread t) c.mem → len (c.thread t) c.mem = len q m + 1 →
      Inv p R W m0 (n + 1) ⟨m, Function.update c.thread t q⟩ := by
    intro t q m hq hm hrun hlen
    have hagree : ∀ s, s ≠ t → ∀ a, a ∈ R s ∨ a ∈ W s → m a = c.mem a := fun s hst a ha =>
      hm a fun hat => ha.elim (hap t s (Ne.symm hst) a hat).1 (hap t s (Ne.symm hst) a hat).2
    refine ⟨fun s => ?_, fun s a ha => ?_, fun a ha => ?_, ?_⟩
    · by_cases hst : s = t
      · subst hst; simpa using hq
      · simpa only [Function.update_of_ne hst] using h.within s
    · by_cases hst : s = t
      · subst hst
        simp only [Function.update_self]
        rw [hrun, h.own s a ha]
      · simp only [Function.update_of_ne hst]
        rw [run_congr (h.within s) (hagree s hst) (.inr ha), h.own s a ha]
    · simp only
      rw [hm a (ha t), h.rest a ha]
    · have e : (fun s => len (Function.update c.thread t q s) m) =
          Function.update (fun s => len (c.thread s) c.mem) t (len q m) := by
        funext s
        by_cases hst : s = t
        · subst hst; simp
        · simp only [Function.update_of_ne hst]
          exact len_congr (h.within s) (hagree s hst)
      have := sum_update (fun s => len (c.thread s) c.mem) t (len q m) hlen
      have hc := h.count
      have e' : ∑ s, len (Function.update c.thread t q s) m =
          ∑ s, Function.update (fun s => len (c.thread s) c.mem) t (len q m) s := Finset.sum_congr rfl fun s _ => congrFun e s
      simp only [e']
      omega
  cases hs with
  | read t a k ht =>
    have hw := h.within t
    rw [ht] at hw
    exact key t _ _ (hw.2 _) (fun _ _ => rfl) (by rw [ht]; rfl) (by rw [ht]; rfl)
  | write t a v k ht =>
    have hw := h.within t
    rw [ht] at hw
    refine key t _ _ hw.2 (fun b hb => Function.update_of_ne ?_ _ _) (by rw [ht]; rfl) (by rw [ht]; rfl)
    rintro rfl
    exact hb hw.1

theorem Inv.steps {p : Fin T → Prog A V} {R W : Fin T → Set A} {m0 : A → V} {n : Nat} {d : Config A T V}
    (hap : ∀ s t, s ≠ t → ∀ a ∈ W s, a ∉ R t ∧ a ∉ W t) (hw : ∀ t, Within (R t) (W t) (p t))
    (h : Steps n ⟨m0, p⟩ d) : Inv p R W m0 n d := by
  generalize hc : (⟨m0, p⟩ : Config A T V) = c at h
  induction h with
  | refl c => subst hc; exact ⟨hw, fun _ _ _ => rfl, fun _ _ => rfl, by simp⟩
  | tail _ hs ih => exact (ih hc).step hap hs

/-! ### Parallel loops -/

section loop

variable {N : Nat} {body : Nat → Prog A V} {R W : Nat → Set A} {deal : List (List Nat)}

/-- What a thread reads and writes. -/
def united (S : Nat → Set A) (deal : List (List Nat)) (t : Fin deal.length) : Set A := {a | ∃ i ∈ deal[t], a ∈ S i}

theorem deal_mem (hd : deal.flatten.Perm (List.range N)) {t : Fin deal.length} {i : Nat} (hi : i ∈ deal[t]) : i ∈ List.range N :=
  hd.mem_iff.mp (List.mem_flatten.mpr ⟨_, List.getElem_mem t.2, hi⟩)

theorem deal_ne (hd : deal.flatten.Perm (List.range N)) {s t : Fin deal.length} (hst : s ≠ t) {i j : Nat} (hi : i ∈ deal[s])
    (hj : j ∈ deal[t]) : i ≠ j := by
  have hn : deal.flatten.Nodup := hd.nodup_iff.mpr List.nodup_range
  rw [List.nodup_flatten] at hn
  rintro rfl
  have hp := List.pairwise_iff_getElem.mp hn.2
  rcases lt_or_gt_of_ne (fun h => hst (Fin.ext h) : s.val ≠ t.val) with h | h
  · exact (List.disjoint_left.mp (hp s.val t.val s.2 t.2 h)) hi hj
  · exact (List.disjoint_left.mp (hp t.val s.val t.2 s.2 h)) hj hi

theorem deal_nodup (hd : deal.flatten.Perm (List.range N)) (t : Fin deal.length) : (deal[t]).Nodup := by
  have hn : deal.flatten.Nodup := hd.nodup_iff.mpr List.nodup_range
  rw [List.nodup_flatten] at hn
  exact hn.1 _ (List.getElem_mem t.2)

theorem threads_within (hd : deal.flatten.Perm (List.range N)) (hw : ∀ i < N, Within (R i) (W i) (body i)) (t : Fin deal.length) :
    Within (united R deal t) (united W deal t) (seq (deal[t].map body)) := by
  refine Within.seq fun p hp => ?_
  obtain ⟨i, hi, rfl⟩ := List.mem_map.mp hp
  exact (hw i (List.mem_range.mp (deal_mem hd hi))).mono (fun a ha => ⟨i, hi, ha⟩) fun a ha => ⟨i, hi, ha⟩

theorem threads_apart (hd : deal.flatten.Perm (List.range N)) (hap : Apart R W (List.range N)) (s t : Fin deal.length)
    (hst : s ≠ t) : ∀ a ∈ united W deal s, a ∉ united R deal t ∧ a ∉ united W deal t := by
  rintro a ⟨i, hi, ha⟩
  constructor
  · rintro ⟨j, hj, haj⟩
    exact (hap i (deal_mem hd hi) j (deal_mem hd hj) (deal_ne hd hst hi hj) a ha).1 haj
  · rintro ⟨j, hj, haj⟩
    exact (hap i (deal_mem hd hi) j (deal_mem hd hj) (deal_ne hd hst hi hj) a ha).2 haj

theorem loop_merged (hd : deal.flatten.Perm (List.range N)) (hw : ∀ i < N, Within (R i) (W i) (body i))
    (hap : Apart R W (List.range N)) {m : A → V} {n : Nat} {c : Config A deal.length V} (h : Steps n (start m body deal) c)
    (hf : c.Finished) : Merged body W (List.range N) m c.mem := by
  have hinv := Inv.steps (threads_apart hd hap) (threads_within hd hw) h
  have hmem : ∀ i ∈ List.range N, ∃ t : Fin deal.length, i ∈ deal[t] := fun i hi => by
    obtain ⟨l, hl, hil⟩ := List.mem_flatten.mp (hd.mem_iff.mpr hi)
    obtain ⟨t, ht, rfl⟩ := List.getElem_of_mem hl
    exact ⟨⟨t, ht⟩, hil⟩
  constructor
  · intro i hi a ha
    obtain ⟨t, hit⟩ := hmem i hi
    have h1 := hinv.own t a ⟨i, hit, ha⟩
    rw [hf t] at h1
    rw [show c.mem a = run (seq (deal[t].map body)) m a from h1]
    exact (seq_merged (deal_nodup hd t) (fun j hj => hw j (List.mem_range.mp (deal_mem hd hj)))
      (fun j hj k hk => hap j (deal_mem hd hj) k (deal_mem hd hk)) m).own i hit a ha
  · intro a ha
    exact hinv.rest a fun t ⟨i, hi, hai⟩ => ha i (deal_mem hd hi) hai

end loop

end

end DW.ParL

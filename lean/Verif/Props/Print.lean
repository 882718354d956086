import Verif.Model.Print
import Mathlib.Data.Nat.Digits.Lemmas
import Mathlib.Tactic.IntervalCases
/-!
# Property C67: printing shapes
-/

set_option autoImplicit false

namespace DW.Props.PrintP

open DW DW.Print

/-- The characters a number is printed with. -/
def IsNum (c : Char) : Prop := c = '-' ∨ ∃ d < 10, c = digitChar d

theorem not_isNum {c : Char} (h : c = ',' ∨ c = '}' ∨ c = ' ') : ¬ IsNum c := by
  rintro (rfl | ⟨d, hd, rfl⟩)
  · revert h; decide
  · interval_cases d <;> revert h <;> decide

theorem digitChar_inj {a b : Nat} (ha : a < 10) (hb : b < 10) (h : digitChar a = digitChar b) : a = b := by
  interval_cases a <;> interval_cases b <;> first | rfl | exact absurd h (by decide)

theorem decimal_isNum (n : Nat) : ∀ c ∈ decimal n, ∃ d < 10, c = digitChar d := by
  intro c hc
  unfold decimal at hc
  split at hc
  · exact ⟨0, by norm_num, by rw [List.mem_singleton.1 hc]; decide⟩
  · rw [List.mem_reverse, List.mem_map] at hc
    obtain ⟨d, hd, rfl⟩ := hc
    exact ⟨d, Nat.digits_lt_base (by norm_num) hd, rfl⟩

theorem map_digitChar_inj : ∀ {l l' : List Nat}, (∀ d ∈ l, d < 10) → (∀ d ∈ l', d < 10) →
    l.map digitChar = l'.map digitChar → l = l'
  | [], [], _, _, _ => rfl
  | [], _ :: _, _, _, h => by simp at h
  | _ :: _, [], _, _, h => by simp at h
  | a :: l, b :: l', h1, h2, h => by
    simp only [List.map_cons, List.cons.injEq] at h
    rw [digitChar_inj (h1 a (by simp)) (h2 b (by simp)) h.1,
      map_digitChar_inj (fun d hd => h1 d (by simp [hd])) (fun d hd => h2 d (by simp [hd])) h.2]

theorem decimal_digits (n : Nat) : ∃ l, (∀ d ∈ l, d < 10) ∧ decimal n = (l.map digitChar).reverse ∧ Nat.ofDigits 10 l = n := by
  unfold decimal
  split
  · rename_i h; subst h; exact ⟨[0], by simp, rfl, by simp [Nat.ofDigits]⟩
  · exact ⟨_, fun d hd => Nat.digits_lt_base (by norm_num) hd, rfl, Nat.ofDigits_digits _ _⟩

theorem decimal_inj {m n : Nat} (h : decimal m = decimal n) : m = n := by
  obtain ⟨l, h1, e1, v1⟩ := decimal_digits m
  obtain ⟨l', h2, e2, v2⟩ := decimal_digits n
  rw [e1, e2] at h
  rw [← v1, ← v2, map_digitChar_inj h1 h2 (List.reverse_injective h)]

theorem decimal_ne_nil (n : Nat) : decimal n ≠ [] := by
  unfold decimal
  split
  · simp
  · rename_i h
    simpa using Nat.digits_ne_nil_iff_ne_zero.2 h

/-- Integers are printed differently. -/
theorem showInt_inj {a b : Int} (h : showInt a = showInt b) : a = b := by
  have key : ∀ (m n : Nat), '-' :: decimal m ≠ decimal n := by
    intro m n h
    obtain ⟨d, hd, e⟩ := decimal_isNum n '-' (by rw [← h]; simp)
    interval_cases d <;> exact absurd e (by decide)
  unfold showInt at h
  split at h <;> split at h
  · have := decimal_inj (List.cons.inj h).2; omega
  · exact absurd h (key _ _)
  · exact absurd h.symm (key _ _)
  · have := decimal_inj h; omega

theorem showInt_isNum (a : Int) : ∀ c ∈ showInt a, IsNum c := by
  intro c hc
  unfold showInt at hc
  split at hc
  · rcases List.mem_cons.1 hc with h | h
    · exact .inl h
    · exact .inr (decimal_isNum _ c h)
  · exact .inr (decimal_isNum _ c hc)

theorem showInt_ne_nil (a : Int) : showInt a ≠ [] := by
  unfold showInt; split
  · simp
  · exact decimal_ne_nil _

/-- Where a number ends is visible. -/
theorem cut {a a' r r' : List Char} {x x' : Char} (ha : ∀ c ∈ a, IsNum c) (ha' : ∀ c ∈ a', IsNum c) (hx : ¬ IsNum x)
    (hx' : ¬ IsNum x') (h : a ++ x :: r = a' ++ x' :: r') : a = a' ∧ x :: r = x' :: r' := by
  induction a generalizing a' with
  | nil =>
    cases a' with
    | nil => exact ⟨rfl, h⟩
    | cons y a' =>
      simp only [List.nil_append, List.cons_append, List.cons.injEq] at h
      exact absurd (by rw [h.1]; exact ha' y (by simp)) hx
  | cons y a ih =>
    cases a' with
    | nil =>
      simp only [List.nil_append, List.cons_append, List.cons.injEq] at h
      exact absurd (by rw [← h.1]; exact ha y (by simp)) hx'
    | cons z a' =>
      simp only [List.cons_append, List.cons.injEq] at h
      obtain ⟨e1, e2⟩ := ih (fun c hc => ha c (by simp [hc])) (fun c hc => ha' c (by simp [hc])) h.2
      exact ⟨by rw [h.1, e1], e2⟩

theorem showItems_inj : ∀ (s s' : Shape), s ≠ [] → s' ≠ [] → showItems s = showItems s' → s = s'
  | [], _, h, _, _ => absurd rfl h
  | _, [], _, h, _ => absurd rfl h
  | [d], [d'], _, _, h => by
    obtain ⟨e, -⟩ := cut (showInt_isNum d) (showInt_isNum d') (not_isNum (by simp)) (not_isNum (by simp)) h
    rw [showInt_inj e]
  | [d], d' :: e' :: ds', _, _, h => by
    simp only [showItems, List.append_assoc, List.cons_append, List.nil_append] at h
    obtain ⟨-, e⟩ := cut (showInt_isNum d) (showInt_isNum d') (not_isNum (by simp)) (not_isNum (by simp)) h
    exact absurd (List.cons.inj e).1 (by decide)
  | d :: e :: ds, [d'], _, _, h => by
    simp only [showItems, List.append_assoc, List.cons_append, List.nil_append] at h
    obtain ⟨-, e⟩ := cut (showInt_isNum d) (showInt_isNum d') (not_isNum (by simp)) (not_isNum (by simp)) h
    exact absurd (List.cons.inj e).1 (by decide)
  | d :: e :: ds, d' :: e' :: ds', _, _, h => by
    rw [showItems, showItems] at h
    simp only [List.append_assoc, List.cons_append, List.nil_append] at h
    obtain ⟨h1, h2⟩ := cut (showInt_isNum d) (showInt_isNum d') (not_isNum (.inl rfl)) (not_isNum (.inl rfl)) h
    simp only [List.cons.injEq, true_and] at h2
    rw [showInt_inj h1, showItems_inj (e :: ds) (e' :: ds') (by simp) (by simp) h2]

/-- **C67**: different shapes are printed differently. -/
theorem showShape_injective : Function.Injective showShape := by
  have key : ∀ s : Shape, s ≠ [] → ['{', ' ', '}'] ≠ '{' :: showItems s := by
    intro s hs h
    have hc : ∃ c r, showItems s = c :: r ∧ IsNum c := by
      cases s with
      | nil => exact absurd rfl hs
      | cons d ds =>
        obtain ⟨c, r, e⟩ := List.exists_cons_of_ne_nil (showInt_ne_nil d)
        have hn := showInt_isNum d c (by rw [e]; simp)
        cases ds with
        | nil => exact ⟨c, _, by rw [showItems, e, List.cons_append], hn⟩
        | cons _ _ => exact ⟨c, _, by rw [showItems, e, List.cons_append, List.cons_append], hn⟩
    obtain ⟨c, r, e, hn⟩ := hc
    rw [e] at h
    simp only [List.cons.injEq, true_and] at h
    exact absurd (by rw [h.1]; exact hn) (not_isNum (.inr (.inr rfl)))
  intro s s' h
  unfold showShape at h
  cases s with
  | nil =>
    cases s' with
    | nil => rfl
    | cons d ds => exact absurd h (key _ (by simp))
  | cons d ds =>
    cases s' with
    | nil => exact absurd h.symm (key _ (by simp))
    | cons d' ds' => exact showItems_inj _ _ (by simp) (by simp) (List.cons.inj h).2

example : showShape [32, -1, 100] = "{32, -1, 100}".toList := by
  simp [showShape, showItems, showInt, decimal, digitChar]

end DW.Props.PrintP

import Verif.Model.ImageRes
/-!
# What `ReadImage` leaves open (C135)
-/

set_option autoImplicit false

namespace DW.Props.ImageResP

open DW.ImageRes
open DW.Image (Ended)

theorem bind_apply {α β : Type} (x : M State α) (f : α → M State β) (s : State) : (x >>= f) s = match x s with
    | (.ok a, s') => f a s'
    | (.throw e, s') => (.throw e, s')
    | (.ub u, s') => (.ub u, s') := by
  show M.bind x f s = _
  unfold M.bind
  rcases x s with ⟨_ | _ | _, s'⟩ <;> rfl

/-- With `n` rows more. -/
def withRows (s : State) (n : Nat) : State
  | .row y => s (.row y) + if y < n then 1 else 0
  | r => s r

theorem withRows_zero (s : State) : withRows s 0 = s := by
  funext r
  cases r <;> simp [withRows]

theorem withRows_succ (s : State) (n : Nat) : Function.update (withRows s n) (.row n) (withRows s n (.row n) + 1) = withRows s (n + 1) := by
  funext r
  cases r with
  | row y =>
    by_cases h : y = n
    · subst h
      simp [withRows]
    · rw [Function.update_of_ne (by simpa using h)]
      simp only [withRows]
      have : y < n ↔ y < n + 1 := by omega
      simp [this]
  | _ => simp [withRows]

theorem allocRows_eq (n : Nat) (s : State) : allocRows n s = (.ok (), withRows s n) := by
  induction n with
  | zero => rw [withRows_zero]; rfl
  | succ n ih =>
    rw [allocRows, bind_apply, ih]
    show (Out.ok (), Function.update (withRows s n) (.row n) (withRows s n (.row n) + 1)) = _
    rw [withRows_succ]

/-- With rows from `k` to `n - 1` more. -/
def fromRow (s : State) (k n : Nat) : State
  | .row y => s (.row y) + if k ≤ y ∧ y < n then 1 else 0
  | r => s r

theorem freeRows_eq {n k : Nat} (s : State) (h : k ≤ n) : freeRows k (withRows s n) = (.ok (), fromRow s k n) := by
  induction k with
  | zero =>
    show (Out.ok (), withRows s n) = _
    congr 1
    funext r
    cases r <;> simp [withRows, fromRow]
  | succ k ih =>
    rw [freeRows, bind_apply, ih (by omega)]
    show release (.row k) (fromRow s k n) = _
    have e : fromRow s k n (.row k) = s (.row k) + 1 := by
      simp only [fromRow]
      rw [if_pos (by omega)]
    rw [release, if_neg (by omega)]
    congr 1
    funext r
    cases r with
    | row y =>
      by_cases hy : y = k
      · subst hy
        rw [Function.update_self, e]
        have : ¬ (y + 1 ≤ y ∧ y < n) := by omega
        simp only [fromRow, if_neg this]
        omega
      · rw [Function.update_of_ne (by simpa using hy)]
        simp only [fromRow]
        have : k ≤ y ∧ y < n ↔ k + 1 ≤ y ∧ y < n := by omega
        simp [this]
    | _ => simp [fromRow]

theorem fromRow_self (s : State) (n : Nat) : fromRow s n n = s := by
  funext r
  cases r with
  | row y =>
    have : ¬ (n ≤ y ∧ y < n) := by omega
    simp [fromRow, this]
  | _ => rfl

/-- Everything but rows. -/
theorem update_rows (s : State) (n : Nat) (r : Res) (v : Nat) (h : ∀ y, r ≠ .row y) : Function.update (withRows s n) r v = withRows (Function.update s r v) n := by
  funext q
  cases q with
  | row y =>
    have : (Res.row y) ≠ r := fun e => h y e.symm
    simp [withRows, Function.update_of_ne this]
  | _ => simp only [Function.update_apply, withRows]

theorem withRows_other (s : State) (n : Nat) (r : Res) (h : ∀ y, r ≠ .row y) : withRows s n r = s r := by
  cases r with
  | row y => exact absurd rfl (h y)
  | _ => rfl

/-- Acquired. -/
def plus (s : State) (r : Res) : State := Function.update s r (s r + 1)

theorem acquire_eq (r : Res) (s : State) : acquire r s = (.ok (), plus s r) := rfl

theorem plus_comm (s : State) (r q : Res) : plus (plus s r) q = plus (plus s q) r := by
  by_cases h : r = q
  · rw [h]
  · unfold plus
    rw [Function.update_of_ne (Ne.symm h), Function.update_of_ne h, Function.update_comm h]

theorem release_plus (r : Res) (s : State) : release r (plus s r) = (.ok (), s) := by
  unfold release plus
  rw [Function.update_self, if_neg (by omega), Function.update_idem, Nat.add_sub_cancel, Function.update_eq_self]

theorem plus_rows (s : State) (n : Nat) (r : Res) (h : ∀ y, r ≠ .row y) : withRows (plus s r) n = plus (withRows s n) r := by
  unfold plus
  rw [update_rows s n r _ h, withRows_other s n r h]

/-- What `ReadPngFile` leaves when it ends, if all it acquired is passed to `endPng`. -/
theorem endPng_all (s : State) : endPng true true (plus (plus (plus (plus s .file) .png) .info) .pointers) = (.ok (), s) := by
  simp only [endPng, if_true, bind_apply, release_plus]
  rw [plus_comm _ .png .info, plus_comm (plus s .file) .info .png, plus_comm (plus s .file) .png .info]
  rw [plus_comm s .file .info, plus_comm (plus s .info) .file .png, release_plus]
  simp only [release_plus]

theorem endPng_structs (s : State) : endPng false true (plus (plus (plus s .file) .png) .info) = (.ok (), s) := by
  have := endPng_all s
  simp only [endPng, if_true, bind_apply, release_plus] at this
  exact this

theorem endPng_file (s : State) : endPng false false (plus s .file) = (.ok (), s) := by
  simp only [endPng, bind_apply, Bool.false_eq_true, if_false]
  show (match release .file (plus s .file) with
    | (.ok a, s') => (pure PUnit.unit : M State PUnit) s'
    | (.throw e, s') => (.throw e, s')
    | (.ub u, s') => (.ub u, s')) = _
  rw [release_plus]
  rfl

/-- A call for which nothing that the code does wrong happens: the file can be opened, and the pixels of a PNG file can be readFile (once
it came to that). -/
def Fine : Call → Prop
  | .png _ none => False
  | .png _ (some f) => f.signature = true → f.header = true → f.fits = true → f.data = true
  | .jpeg f => f ≠ none

/-- A JPEG file that libjpeg cannot read; the process ends. -/
def Exits : Call → Prop
  | .jpeg (some f) => f.header = false ∨ f.data = false
  | _ => False

/-- **C135, one call.** A call that returns or throws has closed the file and freed all memory, and released nothing that was not there. -/
theorem readFile_partial {c : Call} (h : Fine c) (s : State) : (∃ e, readFile c s = (.throw e, s)) ∨ readFile c s = (.ok .returned, s) ∨
    Exits c ∧ ∃ s', readFile c s = (.ok .exited, s') := by
  cases c with
  | png kept f =>
    cases f with
    | none => exact absurd h (by simp [Fine])
    | some f =>
      obtain ⟨sg, hd, n, ft, dt⟩ := f
      simp only [Fine] at h
      simp only [readFile, readPng, bind_apply, acquire_eq]
      cases sg with
      | false => left; exact ⟨.dw, by simp only [Bool.not_false, if_true, bind_apply, endPng_file]; rfl⟩
      | true =>
        simp only [Bool.not_true, Bool.false_eq_true, if_false, bind_apply, acquire_eq]
        by_cases c : (!hd || !ft) = true
        · left
          rw [if_pos c]
          exact ⟨.dw, by simp only [bind_apply, endPng_structs]; rfl⟩
        · rw [if_neg c]
          have hh : hd = true ∧ ft = true := by simpa using c
          obtain rfl := h rfl hh.1 hh.2
          right; left
          simp only [Bool.not_true, Bool.false_eq_true, if_false, bind_apply, acquire_eq, allocRows_eq, freeRows_eq _ (Nat.le_refl n), fromRow_self, endPng_all]
          rfl
  | jpeg f =>
    cases f with
    | none => exact absurd rfl h
    | some f =>
      obtain ⟨hd, ft, dt⟩ := f
      simp only [readFile, readJpeg, bind_apply, acquire_eq]
      cases hd with
      | false => right; right; exact ⟨.inl rfl, _, rfl⟩
      | true => cases ft with
        | false => left; exact ⟨.dw, by simp only [Bool.not_true, Bool.not_false, Bool.false_eq_true, if_false, if_true, bind_apply, release_plus]; rfl⟩
        | true => cases dt with
          | false => right; right; exact ⟨.inr rfl, _, rfl⟩
          | true =>
            right; left
            simp only [Bool.not_true, Bool.false_eq_true, if_false, bind_apply, release_plus]
            rfl

/-- **C135, many calls.** Nothing piles up, however many pictures are read and however many of them make `ReadImage` throw. -/
theorem readAll_partial {l : List Call} (h : ∀ c ∈ l, Fine c) (s : State) : readAll l s = (.ok .returned, s) ∨
    (∃ c ∈ l, Exits c) ∧ ∃ s', readAll l s = (.ok .exited, s') := by
  induction l with
  | nil => exact .inl rfl
  | cons c l ih =>
    have ih' : readAll l s = (.ok .returned, s) ∨ (∃ c' ∈ c :: l, Exits c') ∧ ∃ s', readAll l s = (.ok .exited, s') := by
      rcases ih fun c hc => h c (List.mem_cons_of_mem _ hc) with e | ⟨⟨c', hc, he⟩, e⟩
      · exact .inl e
      · exact .inr ⟨⟨c', List.mem_cons_of_mem _ hc, he⟩, e⟩
    rcases readFile_partial (h c List.mem_cons_self) s with ⟨e, hr⟩ | hr | ⟨he, s', hr⟩
    · simp only [readAll, hr]; exact ih'
    · simp only [readAll, hr]; exact ih'
    · exact .inr ⟨⟨c, List.mem_cons_self, he⟩, s', by simp only [readAll, hr]⟩

/-- **C135, refuted.** When the pixels of a PNG file cannot be read all its rows are lost, and the array of pointers too if the handler sees its
old value. -/
theorem leak_refuted (kept : Bool) (n : Nat) (s : State) : ∃ s', readFile (.png kept (some ⟨true, true, n, true, false⟩)) s = (.throw .dw, s') ∧
    (∀ y, s' (.row y) = s (.row y) + if y < n then 1 else 0) ∧ s' .pointers = s .pointers + (if kept then 0 else 1) ∧
    s' .file = s .file ∧ s' .png = s .png ∧ s' .info = s .info := by
  have nr : ∀ r : Res, (∀ y, r ≠ .row y) → ∀ t, withRows (plus t r) n = plus (withRows t n) r := fun r h t => plus_rows t n r h
  simp only [readFile, readPng, bind_apply, acquire_eq, Bool.not_true, Bool.not_false, Bool.or_self, Bool.false_eq_true, if_false, if_true, allocRows_eq]
  rw [nr .pointers (by simp), nr .info (by simp), nr .png (by simp), nr .file (by simp)]
  cases kept with
  | true =>
    rw [endPng_all]
    exact ⟨_, rfl, fun y => rfl, rfl, rfl, rfl, rfl⟩
  | false =>
    rw [plus_comm _ .info .pointers, plus_comm _ .png .pointers, plus_comm _ .file .pointers, endPng_structs]
    exact ⟨_, rfl, fun y => by simp [plus, withRows], by simp [plus, withRows], by simp [plus, withRows], by simp [plus, withRows], by simp [plus, withRows]⟩

/-- **C135, refuted: files that are not there** are closed. -/
theorem missing_refuted (kept : Bool) (s : State) : readFile (.png kept none) s = (.ub .null, s) ∧ readFile (.jpeg none) s = (.ub .null, s) := ⟨rfl, rfl⟩

/-- A file of three rows, one that is no PNG file, one of the wrong size and a JPEG file: all is given back. -/
example (s : State) : readAll [.png true (some ⟨true, true, 3, true, true⟩), .png true (some ⟨false, true, 3, true, true⟩),
    .png true (some ⟨true, true, 3, false, false⟩), .jpeg (some ⟨true, true, true⟩)] s = (.ok .returned, s) := by
  rcases readAll_partial (l := [.png true (some ⟨true, true, 3, true, true⟩), .png true (some ⟨false, true, 3, true, true⟩),
    .png true (some ⟨true, true, 3, false, false⟩), .jpeg (some ⟨true, true, true⟩)]) (by simp [Fine]) s with h | ⟨h, -⟩
  · exact h
  · simp [Exits] at h

end DW.Props.ImageResP

import Verif.Lemmas.NetworkIO
import Verif.Props.IO
/-!
# C70: what the files mean
-/
namespace Seldon
open Spec Text
variable {A F : Type}

/-! ## numbers -/

theorem isSpace_iff (c : Char) : isSpace c = true ↔ c ∈ [' ', '\t', '\n', '\x0b', '\x0c', '\r'] := by
  simp [isSpace, or_assoc]

theorem isDigit_iff (c : Char) : isDigit c = true ↔ '0' ≤ c ∧ c ≤ '9' := by simp [isDigit]

theorem digitsVal_ofDigits (ds : List Char) : digitsVal ds = Nat.ofDigits 10 (ds.reverse.map (fun c => c.toNat - 48)) := by
  induction ds using List.reverseRecOn with
  | nil => rfl
  | append_singleton l c ih =>
    unfold digitsVal at ih ⊢
    rw [List.foldl_append, ih]
    simp only [List.foldl_cons, List.foldl_nil, List.reverse_append, List.reverse_cons, List.reverse_nil, List.nil_append, List.singleton_append, List.map_cons,
      Nat.ofDigits_cons]
    have : digitVal c = c.toNat - 48 := rfl
    rw [this]; simp; ring

theorem takeWhile_digits {ds rest : List Char} (hd : ∀ c ∈ ds, '0' ≤ c ∧ c ≤ '9') (hr : ∀ c, rest.head? = some c → ¬ ('0' ≤ c ∧ c ≤ '9')) :
    (ds ++ rest).takeWhile isDigit = ds := by
  induction ds with
  | nil =>
    cases rest with
    | nil => rfl
    | cons c r => exact List.takeWhile_cons_of_neg (by rw [isDigit_iff]; exact hr c rfl)
  | cons c ds ih =>
    rw [List.cons_append, List.takeWhile_cons_of_pos ((isDigit_iff c).mpr (hd c (by simp))), ih (fun d h => hd d (by simp [h]))]

theorem dropWhile_blanks {blanks r : List Char} (hb : ∀ c ∈ blanks, c ∈ [' ', '\t', '\n', '\x0b', '\x0c', '\r'])
    (hr : ∀ c, r.head? = some c → isSpace c = false) : (blanks ++ r).dropWhile isSpace = r := by
  induction blanks with
  | nil =>
    cases r with
    | nil => rfl
    | cons c r => exact List.dropWhile_cons_of_neg (by simp [hr c rfl])
  | cons c bs ih =>
    rw [List.cons_append, List.dropWhile_cons_of_pos ((isSpace_iff c).mpr (hb c (by simp))), ih (fun d h => hb d (by simp [h]))]

theorem digit_not_other {c : Char} (h : '0' ≤ c ∧ c ≤ '9') : isSpace c = false ∧ c ≠ '-' ∧ c ≠ '+' := by
  obtain ⟨h1, h2⟩ := h
  refine ⟨?_, ?_, ?_⟩
  · by_contra hs
    have := (isSpace_iff c).mp (by simpa using hs)
    simp only [List.mem_cons, List.not_mem_nil, or_false] at this
    rcases this with rfl | rfl | rfl | rfl | rfl | rfl <;> revert h1 <;> decide
  · rintro rfl; revert h1; decide
  · rintro rfl; revert h1; decide

/-- The result of `std::stoi` for a text that begins with `k`. -/
def intResult (k : Int) : Res Int := if -(2 ^ 31) ≤ k ∧ k < 2 ^ 31 then .ok k else .error (.exn "out_of_range")

theorem stoi_begins {t : List Char} {k : Int} (h : BeginsWith t k) : stoi t = intResult k := by
  obtain ⟨blanks, sign, digits, rest, rfl, hb, hs, hne, hd, hr, hk⟩ := h
  have hval := digitsVal_ofDigits digits
  have htw := takeWhile_digits hd hr
  obtain ⟨d, ds, rfl⟩ := List.exists_cons_of_ne_nil hne
  have hd0 := digit_not_other (hd d (by simp))
  have hres : ∀ neg : Bool, stoiDigits neg (d :: ds ++ rest) = intResult ((if neg then -1 else 1) * (digitsVal (d :: ds) : Int)) := by
    intro neg
    unfold stoiDigits intResult
    rw [htw]
    simp only [reduceCtorEq, if_false]
    cases neg <;> simp only [Bool.false_eq_true, if_false, if_true, one_mul, neg_one_mul]
    · split <;> split <;> first | rfl | (exfalso; omega)
    · split <;> split <;> first | rfl | (exfalso; omega)
  rw [← hval] at hk
  unfold stoi
  rw [List.append_assoc, List.append_assoc, dropWhile_blanks hb (by
    rcases hs with rfl | rfl | rfl
    · intro c hc; simp at hc; rw [← hc]; exact hd0.1
    · intro c hc; simp at hc; rw [← hc]; decide
    · intro c hc; simp at hc; rw [← hc]; decide)]
  rcases hs with rfl | rfl | rfl
  · rw [hk]
    simp only [List.nil_append, List.cons_append]
    split
    · rename_i h; simp at h; exact absurd h.1 hd0.2.1
    · rename_i h; simp at h; exact absurd h.1 hd0.2.2
    · rw [← List.cons_append, hres]; simp
  · rw [hk]
    show stoiDigits false (d :: ds ++ rest) = _
    rw [hres]; simp
  · rw [hk]
    show stoiDigits true (d :: ds ++ rest) = _
    rw [hres]; simp

theorem mem_takeWhile_pos {p : Char → Bool} {l : List Char} {c : Char} (h : c ∈ l.takeWhile p) : p c = true := by
  have := List.all_takeWhile (p := p) (l := l)
  exact List.all_eq_true.mp this c h

theorem stoi_no_number {t : List Char} (h : ∀ k, ¬ BeginsWith t k) : stoi t = .error (.exn "invalid_argument") := by
  have key : ∀ (neg : Bool) (sign s : List Char), (sign = [] ∨ sign = ['+'] ∨ sign = ['-']) → t.dropWhile isSpace = sign ++ s →
      stoiDigits neg s = .error (.exn "invalid_argument") := by
    intro neg sign s hs he
    unfold stoiDigits
    simp only
    rw [if_pos]
    by_contra hne
    refine h _ ⟨t.takeWhile isSpace, sign, s.takeWhile isDigit, s.dropWhile isDigit, ?_, ?_, hs, hne, ?_, ?_, rfl⟩
    · rw [List.append_assoc, List.append_assoc, List.takeWhile_append_dropWhile, ← he, List.takeWhile_append_dropWhile]
    · intro c hc; exact (isSpace_iff c).mp (mem_takeWhile_pos hc)
    · intro c hc; exact (isDigit_iff c).mp (mem_takeWhile_pos hc)
    · intro c hc hd
      have := List.head?_dropWhile_not isDigit s
      rw [hc] at this
      simp only at this
      rw [(isDigit_iff c).mpr hd] at this
      cases this
  unfold stoi
  split
  · rename_i s he; exact key true ['-'] s (by simp) he
  · rename_i s he; exact key false ['+'] s (by simp) he
  · rename_i s he _; exact key false [] _ (by simp) rfl

/-- C70, numbers: an integer field is the number it begins with, if that fits into an `int`; otherwise the reader throws. -/
theorem C70_integers (t : List Char) :
    (∀ k, BeginsWith t k → -(2 ^ 31) ≤ k → k < 2 ^ 31 → stoi t = .ok k) ∧
    (∀ k, BeginsWith t k → k < -(2 ^ 31) ∨ 2 ^ 31 ≤ k → stoi t = .error (.exn "out_of_range")) ∧
    ((∀ k, ¬ BeginsWith t k) → stoi t = .error (.exn "invalid_argument")) := by
  refine ⟨fun k h h1 h2 => ?_, fun k h hk => ?_, stoi_no_number⟩
  · rw [stoi_begins h, intResult, if_pos ⟨h1, h2⟩]
  · rw [stoi_begins h, intResult, if_neg (by omega)]

/-! ## lines -/

theorem each_all {α β : Type} (f : α → Res β) (l : List α) (s : List β) :
    each (fun a s => do
      let b ← f a
      .ok (s ++ [b])) l s = (do
      let bs ← all f l
      .ok (s ++ bs)) := by
  induction l generalizing s with
  | nil => simp [each, all]
  | cons a l ih =>
    simp only [each, all]
    cases f a with
    | error e => rfl
    | ok b =>
      simp only [Res.bind_ok, ih]
      cases all f l with
      | error e => rfl
      | ok bs => simp

theorem column_index (T : Double F) (e : List Char) (c : NetworkIO.Columns F) (h2 : 2 ≤ c.idx) (h : c.idx < addSz 2 c.n) :
    NetworkIO.column T e c = (do
      let v ← stoi e
      .ok { c with ns := c.ns ++ [Network.toSize v], idx := c.idx + 1 }) := by
  unfold NetworkIO.column
  rw [if_neg (by omega), if_pos ⟨h2, h⟩]
  cases stoi e <;> rfl

theorem column_weight (T : Double F) (e : List Char) (c : NetworkIO.Columns F) (h2 : 2 ≤ c.idx) (h : addSz 2 c.n ≤ c.idx) :
    NetworkIO.column T e c = (do
      let w ← T.stod e
      .ok { c with ws := c.ws ++ [w], idx := c.idx + 1 }) := by
  unfold NetworkIO.column
  rw [if_neg (by omega), if_neg (by omega), if_pos h]
  cases T.stod e <;> rfl

theorem column_count (T : Double F) (e : List Char) (c : NetworkIO.Columns F) (h : c.idx = 1) :
    NetworkIO.column T e c = (do
      let v ← stoi e
      .ok { c with n := Network.toSize v, idx := c.idx + 1 }) := by
  unfold NetworkIO.column
  rw [if_pos h]
  cases stoi e <;> rfl

/-- The columns after the second one. -/
theorem columns_rest (T : Double F) : ∀ (cs : List (List Char)) (c : NetworkIO.Columns F), 2 ≤ c.idx → (c.ws = [] ∨ addSz 2 c.n ≤ c.idx) →
    each (NetworkIO.column T) cs c = (do
      let ks ← all stoi (cs.take (addSz 2 c.n - c.idx))
      let ws ← all T.stod (cs.drop (addSz 2 c.n - c.idx))
      .ok { c with ns := c.ns ++ ks.map Network.toSize, ws := c.ws ++ ws, idx := c.idx + cs.length }) := by
  intro cs
  induction cs with
  | nil => intro c _ _; simp [each, all]
  | cons e cs ih =>
    intro c h2 hw
    rw [each]
    by_cases hlt : c.idx < addSz 2 c.n
    · rw [column_index T e c h2 hlt]
      obtain ⟨k, hk⟩ : ∃ k, addSz 2 c.n - c.idx = k + 1 := ⟨addSz 2 c.n - c.idx - 1, by omega⟩
      rw [hk, List.take_succ_cons, List.drop_succ_cons, all]
      cases hv : stoi e with
      | error err => rfl
      | ok v =>
        simp only [Res.bind_ok]
        rw [ih _ (by simp; omega) (by
          rcases hw with hw | hw
          · exact Or.inl hw
          · omega)]
        simp only
        rw [show addSz 2 c.n - (c.idx + 1) = k by omega]
        cases all stoi (cs.take k) with
        | error err => rfl
        | ok ks =>
          simp only [Res.bind_ok]
          cases all T.stod (cs.drop k) with
          | error err => rfl
          | ok ws => simp; omega
    · rw [column_weight T e c h2 (by omega)]
      rw [show addSz 2 c.n - c.idx = 0 by omega]
      simp only [List.take_zero, List.drop_zero, all, Res.bind_ok]
      cases hv : T.stod e with
      | error err => rfl
      | ok v =>
        simp only [Res.bind_ok]
        rw [ih _ (by simp; omega) (by right; simp; omega)]
        simp only
        rw [show addSz 2 c.n - (c.idx + 1) = 0 by omega]
        simp only [List.take_zero, List.drop_zero, all, Res.bind_ok]
        cases all T.stod cs with
        | error err => rfl
        | ok ws => simp; omega

theorem stoi_range {t : List Char} {k : Int} (h : stoi t = .ok k) : -(2 ^ 31) ≤ k ∧ k < 2 ^ 31 := by
  by_cases hb : ∃ k, BeginsWith t k
  · obtain ⟨k', hb⟩ := hb
    rw [stoi_begins hb, intResult] at h
    split at h
    · cases h; assumption
    · cases h
  · push Not at hb
    rw [stoi_no_number hb] at h
    cases h

theorem indexColumns_eq {n : Int} (h1 : -(2 ^ 31) ≤ n) (h2 : n < 2 ^ 31) (cs : List (List Char)) (hl : cs.length < 2 ^ 63) :
    cs.take (addSz 2 (Network.toSize n) - 2) = cs.take (indexColumns n cs.length) ∧
    cs.drop (addSz 2 (Network.toSize n) - 2) = cs.drop (indexColumns n cs.length) := by
  have e : addSz 2 (Network.toSize n) - 2 = indexColumns n cs.length ∨
      (cs.length ≤ addSz 2 (Network.toSize n) - 2 ∧ indexColumns n cs.length = cs.length) := by
    unfold addSz Network.toSize indexColumns
    split
    · left; omega
    · split
      · left; omega
      · right; omega
  rcases e with e | ⟨e1, e2⟩
  · rw [e]; exact ⟨rfl, rfl⟩
  · rw [e2, List.take_of_length_le e1, List.drop_eq_nil_of_le e1]; simp

theorem rowOf_line (T : Double F) {line : List Char} (h : line.length < 2 ^ 63 - 1) : NetworkIO.rowOf T line = networkLine stoi T.stod line := by
  unfold NetworkIO.rowOf networkLine
  have hl := split_length_le ',' line
  cases hs : split ',' line with
  | nil => rfl
  | cons a l =>
    cases l with
    | nil => simp [each, NetworkIO.column, addSz]
    | cons c cs =>
      rw [hs] at hl
      simp only [List.length_cons] at hl
      rw [each]
      have c0 : NetworkIO.column T a { ns := [], ws := [], idx := 0, n := 0 } = .ok { ns := [], ws := [], idx := 1, n := 0 } := by
        simp [NetworkIO.column, addSz]
      rw [c0]
      simp only [Res.bind_ok]
      rw [each, column_count T c _ rfl]
      cases hv : stoi c with
      | error err => rfl
      | ok n =>
        have hr := stoi_range hv
        simp only [Res.bind_ok]
        rw [columns_rest T cs _ (by simp) (Or.inl rfl)]
        simp only
        rw [(indexColumns_eq hr.1 hr.2 cs (by omega)).1, (indexColumns_eq hr.1 hr.2 cs (by omega)).2]
        cases all stoi (cs.take (indexColumns n cs.length)) with
        | error err => rfl
        | ok ks =>
          simp only [Res.bind_ok]
          cases all T.stod (cs.drop (indexColumns n cs.length)) with
          | error err => rfl
          | ok ws => rfl

theorem all_congr {α β : Type} {f g : α → Res β} {l : List α} (h : ∀ a ∈ l, f a = g a) : all f l = all g l := by
  induction l with
  | nil => rfl
  | cons a l ih => simp only [all, h a (by simp), ih (fun b hb => h b (by simp [hb]))]

theorem split_member_length (c : Char) : ∀ (s l : List Char), l ∈ split c s → l.length ≤ s.length := by
  intro s
  induction s with
  | nil => intro l h; simp [split] at h; simp [h]
  | cons x xs ih =>
    intro l h
    unfold split at h
    split at h
    · rcases List.mem_cons.mp h with rfl | h
      · simp
      · have := ih l h; simp; omega
    · split at h
      · rw [List.mem_singleton] at h; subst h; simp
      · rename_i h' t ht
        rcases List.mem_cons.mp h with rfl | h
        · have := ih h' (by rw [ht]; simp); simp; omega
        · have := ih l (by rw [ht]; simp [h]); simp; omega

theorem dataLines_length {contents l : List Char} (h : l ∈ dataLines contents) : l.length ≤ contents.length := by
  unfold dataLines at h
  exact split_member_length _ _ _ (List.takeWhile_subset _ (List.mem_filter.mp h).1)

/-- C70, network files: the network read from a file has one agent per data line, with the neighbours and weights of that line; the first line that cannot be
read ends the reading with its exception. -/
theorem C70_network [Inhabited A] (T : Double F) {contents : List Char} (h : contents.length < 2 ^ 63 - 1) :
    NetworkIO.fromFile (A := A) T contents = (do
      let rows ← all (networkLine stoi T.stod) (dataLines contents)
      .ok (Network.ofLists (rows.map Prod.fst) (rows.map Prod.snd) .incoming)) := by
  rw [NetworkIO.fromFile_eq T (by rw [npos_eq]; omega)]
  have e : ∀ (ls : List (List Char)) (s : List (List Nat) × List (List F)), (∀ l ∈ ls, l.length < 2 ^ 63 - 1) →
      each (fun line (s : List (List Nat) × List (List F)) => do
        let r ← NetworkIO.rowOf T line
        .ok (s.1 ++ [r.1], s.2 ++ [r.2])) ls s = (do
        let rows ← all (networkLine stoi T.stod) ls
        .ok (s.1 ++ rows.map Prod.fst, s.2 ++ rows.map Prod.snd)) := by
    intro ls
    induction ls with
    | nil => intro s _; simp [each, all]
    | cons l ls ih =>
      intro s hl
      rw [each, all, rowOf_line T (hl l (by simp))]
      cases networkLine stoi T.stod l with
      | error err => rfl
      | ok r =>
        simp only [Res.bind_ok]
        rw [ih _ (fun x hx => hl x (by simp [hx]))]
        cases all (networkLine stoi T.stod) ls with
        | error err => rfl
        | ok rows => simp
  rw [e _ _ (fun l hl => lt_of_le_of_lt (dataLines_length hl) h)]
  cases all (networkLine stoi T.stod) (dataLines contents) with
  | error err => rfl
  | ok rows => simp

/-- C70, agent files: one agent per data line, read from what follows the first column. -/
theorem C70_agents (fmt : AgentIO.Format A) {contents : List Char} (h : contents.length < 2 ^ 64 - 1) :
    AgentIO.fromFile fmt contents = all (fun line => fmt.fromString (afterFirstColumn line)) (dataLines contents) := by
  rw [AgentIO.fromFile_eq fmt h]
  refine (each_all (fun line => fmt.fromString (afterFirstColumn line)) _ _).trans ?_
  cases all (fun line => fmt.fromString (afterFirstColumn line)) (dataLines contents) <;> rfl

/-- A good line, one that is cut short (the reader is silent about it), a negative index (it becomes a huge one), a number that is too large. -/
example : networkLine stoi intText.stod "0, 2, 1, 0, 5, 6".toList = .ok ([1, 0], [5, 6]) ∧
    networkLine stoi intText.stod "0, 2, 1".toList = .ok ([1], []) ∧
    networkLine stoi intText.stod "0, 1, -1, 5".toList = .ok ([2 ^ 64 - 1], [5]) ∧
    networkLine stoi intText.stod "0, 1, 2147483648, 5".toList = .error (.exn "out_of_range") ∧
    networkLine stoi intText.stod "0, x".toList = .error (.exn "invalid_argument") ∧
    BeginsWith " +12x".toList 12 :=
  ⟨by decide +kernel, by decide +kernel, by decide +kernel, by decide +kernel, by decide +kernel,
    " ".toList, "+".toList, "12".toList, "x".toList, by decide, by decide, by decide, by decide, by decide, by decide, by decide⟩

end Seldon

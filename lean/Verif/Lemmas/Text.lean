import Verif.Lemmas.Basic
import Verif.Spec.Text
import Mathlib.Tactic.Ring
import Mathlib.Data.List.Basic
/-!
# Helper lemmas about text
-/
namespace Seldon
open Spec
namespace Text

/-! ## split and join -/

theorem split_ne_nil (c : Char) (s : List Char) : split c s ≠ [] := by
  cases s with
  | nil => simp [split]
  | cons x xs =>
    unfold split
    split
    · simp
    · split <;> simp

theorem join_split (c : Char) (s : List Char) : join c (split c s) = s := by
  induction s with
  | nil => rfl
  | cons x xs ih =>
    unfold split
    split
    · rename_i h
      obtain ⟨h', t, ht⟩ := List.exists_cons_of_ne_nil (split_ne_nil c xs)
      rw [ht] at ih ⊢
      simp [join, ih, h]
    · split
      · rename_i h; exact absurd h (split_ne_nil c xs)
      · rename_i h' t ht
        rw [ht] at ih
        cases t with
        | nil => simp [join] at ih ⊢; exact ih
        | cons t ts => simp [join] at ih ⊢; exact ih

theorem split_clean (c : Char) (s : List Char) : ∀ l ∈ split c s, c ∉ l := by
  induction s with
  | nil => simp [split]
  | cons x xs ih =>
    unfold split
    split
    · intro l hl
      rcases List.mem_cons.mp hl with rfl | hl
      · simp
      · exact ih l hl
    · rename_i hx
      split
      · intro l hl; rw [List.mem_singleton] at hl; subst hl; simpa using Ne.symm hx
      · rename_i h' t ht
        rw [ht] at ih
        intro l hl
        rcases List.mem_cons.mp hl with rfl | hl
        · have := ih h' (by simp)
          simp only [List.mem_cons, not_or]
          exact ⟨Ne.symm hx, this⟩
        · exact ih l (by simp [hl])

theorem split_append {c : Char} {l : List Char} (h : c ∉ l) (r : List Char) :
    split c (l ++ c :: r) = l :: split c r := by
  induction l with
  | nil => simp [split]
  | cons x xs ih =>
    simp only [List.mem_cons, not_or] at h
    rw [List.cons_append, split, if_neg (Ne.symm h.1), ih h.2]

theorem split_single {c : Char} {l : List Char} (h : c ∉ l) : split c l = [l] := by
  induction l with
  | nil => rfl
  | cons x xs ih =>
    simp only [List.mem_cons, not_or] at h
    rw [split, if_neg (Ne.symm h.1), ih h.2]

theorem split_join {c : Char} : ∀ (ls : List (List Char)), ls ≠ [] → (∀ l ∈ ls, c ∉ l) → split c (join c ls) = ls := by
  intro ls
  induction ls with
  | nil => intro h; exact absurd rfl h
  | cons l ls ih =>
    intro _ h
    cases ls with
    | nil => exact split_single (h l (by simp))
    | cons l' ls =>
      rw [join, split_append (h l (by simp)), ih (by simp) (fun x hx => h x (by simp [hx]))]

/-! ## find and substr -/

theorem find_some {s h r : List Char} {c : Char} {pos : Nat} (he : s.drop pos = h ++ c :: r) (hc : c ∉ h) :
    find s c pos = pos + h.length := by
  unfold find
  have : (s.drop pos).findIdx? (· == c) = some h.length := by
    rw [he, List.findIdx?_append]
    have h1 : h.findIdx? (· == c) = none := by
      rw [List.findIdx?_eq_none_iff]
      intro x hx
      simp only [beq_eq_false_iff_ne]
      intro e; subst e; exact hc hx
    rw [h1]
    simp [List.findIdx?_cons]
  rw [this]

theorem find_none {s : List Char} {c : Char} {pos : Nat} (hc : c ∉ s.drop pos) : find s c pos = npos := by
  unfold find
  have : (s.drop pos).findIdx? (· == c) = none := by
    rw [List.findIdx?_eq_none_iff]
    intro x hx
    simp only [beq_eq_false_iff_ne]
    intro e; subst e; exact hc hx
  rw [this]

theorem substr_le {s : List Char} {pos count : Nat} (h : pos ≤ s.length) : substr s pos count = .ok ((s.drop pos).take count) := by
  unfold substr; rw [if_neg (by omega)]

theorem subSz_of_le {a b : Nat} (h : b ≤ a) (ha : a < 2 ^ 64) : subSz a b = a - b := by
  unfold subSz
  have : a + 2 ^ 64 - b = (a - b) + 2 ^ 64 := by omega
  rw [this, Nat.add_mod_right, Nat.mod_eq_of_lt (by omega)]

theorem addSz_of_lt {a b : Nat} (h : a + b < 2 ^ 64) : addSz a b = a + b := Nat.mod_eq_of_lt h

theorem npos_eq : npos = 2 ^ 64 - 1 := rfl
theorem addSz_npos : addSz npos 1 = 0 := by decide

theorem drop_eq_length {s h r : List Char} {c : Char} {pos : Nat} (he : s.drop pos = h ++ c :: r) :
    pos + h.length + 1 ≤ s.length := by
  have := congrArg List.length he
  simp at this; omega

theorem drop_next {s h r : List Char} {c : Char} {pos : Nat} (he : s.drop pos = h ++ c :: r) :
    s.drop (pos + h.length + 1) = r := by
  rw [show pos + h.length + 1 = pos + (h.length + 1) by omega, ← List.drop_drop, he]
  simp

/-! ## the line loop -/

theorem each_append {α σ : Type} (f : α → σ → Res σ) (l l' : List α) (s : σ) :
    each f (l ++ l') s = (each f l s >>= each f l') := by
  induction l generalizing s with
  | nil => rfl
  | cons a l ih =>
    simp only [List.cons_append, each]
    cases f a s with
    | error e => rfl
    | ok s' => exact ih s'

theorem each_congr {α σ : Type} {f g : α → σ → Res σ} {l : List α} (h : ∀ a ∈ l, ∀ s, f a s = g a s) (s : σ) :
    each f l s = each g l s := by
  induction l generalizing s with
  | nil => rfl
  | cons a l ih =>
    simp only [each]
    rw [h a (by simp)]
    cases g a s with
    | error e => rfl
    | ok s' => exact ih (fun b hb => h b (by simp [hb])) s'

theorem readLines_aux {σ : Type} {contents : List Char} {body : List Char → Nat → σ → Res σ} {body' : List Char → σ → Res σ}
    (hlen : contents.length < npos) (hb : ∀ line e s, line.length ≤ e → line.length < npos → body line e s = body' line s) :
    ∀ (ls : List (List Char)) (fuel start : Nat) (s : σ), ls ≠ [] → (∀ l ∈ ls, '\n' ∉ l) → ls.length ≤ fuel →
      start ≤ contents.length → contents.drop start = join '\n' ls →
      readLines contents body fuel start s =
        each body' ((ls.takeWhile (fun l => l ≠ [])).filter (fun l => l.head? ≠ some '#')) s := by
  intro ls
  induction ls with
  | nil => intro _ _ _ h; exact absurd rfl h
  | cons l ls ih =>
    intro fuel start s _ hcl hf hst hd
    obtain ⟨fuel, rfl⟩ : ∃ f, fuel = f + 1 := ⟨fuel - 1, by simp at hf; omega⟩
    have hl : '\n' ∉ l := hcl l (by simp)
    rw [npos_eq] at hlen
    cases ls with
    | nil =>
      -- last line
      simp only [join] at hd
      have hfind : find contents '\n' start = npos := find_none (by rw [hd]; exact hl)
      have hll : l.length ≤ npos - start := by
        have := congrArg List.length hd
        simp at this; rw [npos_eq]; omega
      have hsub : substr contents start (subSz npos start) = .ok l := by
        rw [substr_le hst, subSz_of_le (by rw [npos_eq]; omega) (by rw [npos_eq]; omega), hd, List.take_of_length_le hll]
      simp only [readLines, hfind, hsub, Res.bind_ok]
      cases l with
      | nil => simp [each]
      | cons c l =>
        by_cases hc : c = '#'
        · simp [hc, each]
        · simp only [hc, if_false]
          rw [hb _ _ _ (by omega) (by have := congrArg List.length hd; simp at this; rw [npos_eq]; simp; omega)]
          simp [hc, each]
    | cons l' ls =>
      rw [join] at hd
      have hfind : find contents '\n' start = start + l.length := find_some hd hl
      have hle := drop_eq_length hd
      have hne : ¬ (start + l.length = npos) := by rw [npos_eq]; omega
      have hsub : substr contents start (subSz (start + l.length) start) = .ok l := by
        rw [substr_le hst, subSz_of_le (by omega) (by omega), hd]
        simp
      have hadd : addSz (start + l.length) 1 = start + l.length + 1 := addSz_of_lt (by omega)
      have hih := fun s => ih fuel (start + l.length + 1) s (by simp) (fun x hx => hcl x (by simp [hx])) (by simp at hf ⊢; omega) hle (drop_next hd)
      simp only [readLines, hfind, hsub, Res.bind_ok, hne, if_false, hadd]
      cases l with
      | nil => simp [each]
      | cons c l =>
        by_cases hc : c = '#'
        · simp only [hc, if_true]
          rw [hc] at hih
          rw [hih]
          simp
        · simp only [hc, if_false]
          rw [hb _ _ _ (by omega) (by rw [npos_eq]; omega)]
          simp only [ne_eq, reduceCtorEq, not_false_eq_true, decide_true, List.takeWhile_cons_of_pos]
          rw [List.filter_cons_of_pos (by simp [hc])]
          simp only [each]
          cases body' (c :: l) s with
          | error e => rfl
          | ok s' => exact hih s'

theorem readLines_eq {σ : Type} {contents : List Char} {body : List Char → Nat → σ → Res σ} {body' : List Char → σ → Res σ}
    (hlen : contents.length < npos) (hb : ∀ line e s, line.length ≤ e → line.length < npos → body line e s = body' line s) (s : σ) :
    readLines contents body (contents.length + 1) 0 s = each body' (dataLines contents) s := by
  refine readLines_aux hlen hb (split '\n' contents) _ 0 s (split_ne_nil _ _) (split_clean _ _) ?_ (Nat.zero_le _) ?_
  · have : ∀ (s : List Char), (split '\n' s).length ≤ s.length + 1 := by
      intro s
      induction s with
      | nil => simp [split]
      | cons x xs ih =>
        unfold split
        split
        · simpa using ih
        · split
          · simp
          · rename_i h; rw [h] at ih; simp at ih ⊢; omega
    exact this contents
  · rw [List.drop_zero, join_split]

/-! ## numbers -/

theorem digitChar_spec {n : Nat} (h : n < 10) : isDigit (digitChar n) = true ∧ digitVal (digitChar n) = n ∧
    isSpace (digitChar n) = false ∧ digitChar n ≠ '-' ∧ digitChar n ≠ '+' ∧ digitChar n ≠ ',' ∧ digitChar n ≠ '\n' ∧ digitChar n ≠ '#' := by
  have : n = 0 ∨ n = 1 ∨ n = 2 ∨ n = 3 ∨ n = 4 ∨ n = 5 ∨ n = 6 ∨ n = 7 ∨ n = 8 ∨ n = 9 := by omega
  rcases this with rfl | rfl | rfl | rfl | rfl | rfl | rfl | rfl | rfl | rfl <;> decide

theorem decimalAux_spec : ∀ (f n : Nat), n < f →
    digitsVal (decimalAux f n) = n ∧ decimalAux f n ≠ [] ∧ ∀ c ∈ decimalAux f n, ∃ d, d < 10 ∧ c = digitChar d := by
  intro f
  induction f with
  | zero => intro n h; omega
  | succ f ih =>
    intro n hn
    unfold decimalAux
    by_cases h : n < 10
    · rw [if_pos h]
      refine ⟨?_, by simp, ?_⟩
      · simp [digitsVal, (digitChar_spec h).2.1]
      · intro c hc; rw [List.mem_singleton] at hc; exact ⟨n, h, hc⟩
    · rw [if_neg h]
      obtain ⟨h1, h2, h3⟩ := ih (n / 10) (by omega)
      have hm : n % 10 < 10 := Nat.mod_lt _ (by omega)
      refine ⟨?_, by simp, ?_⟩
      · unfold digitsVal at h1 ⊢
        rw [List.foldl_append, h1]
        simp only [List.foldl_cons, List.foldl_nil, (digitChar_spec hm).2.1]
        omega
      · intro c hc
        rcases List.mem_append.mp hc with hc | hc
        · exact h3 c hc
        · rw [List.mem_singleton] at hc; exact ⟨_, hm, hc⟩

theorem decimal_val (n : Nat) : digitsVal (decimal n) = n := (decimalAux_spec _ _ (Nat.lt_succ_self n)).1
theorem decimal_ne (n : Nat) : decimal n ≠ [] := (decimalAux_spec _ _ (Nat.lt_succ_self n)).2.1
theorem decimal_mem {n : Nat} {c : Char} (h : c ∈ decimal n) : isDigit c = true ∧ isSpace c = false ∧ c ≠ '-' ∧ c ≠ '+' ∧ c ≠ ',' ∧ c ≠ '\n' ∧ c ≠ '#' := by
  obtain ⟨d, hd, rfl⟩ := (decimalAux_spec _ _ (Nat.lt_succ_self n)).2.2 c h
  have := digitChar_spec hd
  tauto

theorem stoi_blank (s : List Char) : stoi (' ' :: s) = stoi s := by
  unfold stoi; rw [List.dropWhile_cons_of_pos (by decide)]

theorem stoiDigits_comma (neg : Bool) (s r : List Char) : stoiDigits neg (s ++ ',' :: r) = stoiDigits neg s := by
  have : (s ++ ',' :: r).takeWhile isDigit = s.takeWhile isDigit := by
    induction s with
    | nil => rw [List.nil_append, List.takeWhile_cons_of_neg (by decide)]; rfl
    | cons x xs ih =>
      rw [List.cons_append]
      by_cases hx : isDigit x = true
      · rw [List.takeWhile_cons_of_pos hx, List.takeWhile_cons_of_pos hx, ih]
      · rw [List.takeWhile_cons_of_neg hx, List.takeWhile_cons_of_neg hx]
  unfold stoiDigits; rw [this]

theorem stoi_comma (s r : List Char) : stoi (s ++ ',' :: r) = stoi s := by
  have key : ∀ t : List Char, (t = [] ∨ ∃ x xs, t = x :: xs ∧ isSpace x = false) →
      (match t ++ ',' :: r with
        | '-' :: s => stoiDigits true s
        | '+' :: s => stoiDigits false s
        | s => stoiDigits false s) =
      (match t with
        | '-' :: s => stoiDigits true s
        | '+' :: s => stoiDigits false s
        | s => stoiDigits false s) := by
    intro t ht
    rcases ht with rfl | ⟨x, xs, rfl, _⟩
    · simp; exact stoiDigits_comma false [] r
    · by_cases h1 : x = '-'
      · subst h1; exact stoiDigits_comma true xs r
      · by_cases h2 : x = '+'
        · subst h2; exact stoiDigits_comma false xs r
        · have e1 : ∀ ys : List Char, (match x :: ys with
            | '-' :: s => stoiDigits true s
            | '+' :: s => stoiDigits false s
            | s => stoiDigits false s) = stoiDigits false (x :: ys) := by
            intro ys
            split
            · rename_i h; simp at h; exact absurd h.1 h1
            · rename_i h; simp at h; exact absurd h.1 h2
            · rfl
          rw [List.cons_append, e1, e1]
          exact stoiDigits_comma false (x :: xs) r
  have hd : ∀ s : List Char, (s ++ ',' :: r).dropWhile isSpace = s.dropWhile isSpace ++ ',' :: r := by
    intro s
    induction s with
    | nil => rw [List.nil_append, List.dropWhile_cons_of_neg (by decide)]; rfl
    | cons x xs ih =>
      rw [List.cons_append]
      by_cases hx : isSpace x = true
      · rw [List.dropWhile_cons_of_pos hx, List.dropWhile_cons_of_pos hx, ih]
      · rw [List.dropWhile_cons_of_neg hx, List.dropWhile_cons_of_neg hx]; rfl
  unfold stoi
  rw [hd]
  apply key
  cases h : s.dropWhile isSpace with
  | nil => exact Or.inl rfl
  | cons x xs =>
    right
    refine ⟨x, xs, rfl, ?_⟩
    have := List.head?_dropWhile_not isSpace s
    rw [h] at this
    simpa using this

theorem takeWhile_all {p : Char → Bool} {l : List Char} (h : ∀ c ∈ l, p c = true) : l.takeWhile p = l := by
  induction l with
  | nil => rfl
  | cons x xs ih => rw [List.takeWhile_cons_of_pos (h x (by simp)), ih (fun c hc => h c (by simp [hc]))]

theorem stoiDigits_decimal (neg : Bool) {n : Nat} (h : n < 2 ^ 31 ∨ (neg = true ∧ n ≤ 2 ^ 31)) :
    stoiDigits neg (decimal n) = .ok (if neg then -(n : Int) else n) := by
  unfold stoiDigits
  rw [takeWhile_all (fun c hc => (decimal_mem hc).1)]
  simp only [decimal_ne, if_false, decimal_val]
  have : ¬ ((if neg = true then -(n : Int) else n) < -2 ^ 31 ∨ 2 ^ 31 ≤ (if neg = true then -(n : Int) else n)) := by
    rcases h with h | ⟨h, h'⟩
    · split <;> omega
    · rw [if_pos h]; omega
  rw [if_neg this]

theorem stoi_decimal {n : Nat} (h : n < 2 ^ 31) : stoi (decimal n) = .ok (n : Int) := by
  unfold stoi
  cases hd : decimal n with
  | nil => exact absurd hd (decimal_ne n)
  | cons x xs =>
    have hx := decimal_mem (n := n) (c := x) (by rw [hd]; simp)
    rw [List.dropWhile_cons_of_neg (by simp [hx.2.1])]
    split
    · rename_i h; simp at h; exact absurd h.1 hx.2.2.1
    · rename_i h; simp at h; exact absurd h.1 hx.2.2.2.1
    · rw [← hd, stoiDigits_decimal false (Or.inl h)]; rfl

theorem stoi_fmtInt {i : Int} (h1 : -(2 ^ 31) ≤ i) (h2 : i < 2 ^ 31) : stoi (fmtInt i) = .ok i := by
  cases i with
  | ofNat n => exact stoi_decimal (by simp at h2; omega)
  | negSucc n =>
    unfold stoi fmtInt
    rw [List.dropWhile_cons_of_neg (by decide)]
    simp only
    rw [stoiDigits_decimal true (Or.inr ⟨rfl, by omega⟩)]
    simp [Int.negSucc_eq]

theorem fmtInt_mem {i : Int} {c : Char} (h : c ∈ fmtInt i) : c ≠ ',' ∧ c ≠ '\n' := by
  cases i with
  | ofNat n => have := decimal_mem (n := n) (c := c) h; tauto
  | negSucc n =>
    unfold fmtInt at h
    rcases List.mem_cons.mp h with rfl | h
    · decide
    · have := decimal_mem h; tauto

theorem stoi_pad (k : Nat) (s : List Char) : stoi (List.replicate k ' ' ++ s) = stoi s := by
  induction k with
  | zero => rfl
  | succ k ih => rw [List.replicate_succ, List.cons_append, stoi_blank, ih]

theorem stoi_padLeft (w : Nat) (s : List Char) : stoi (padLeft w s) = stoi s := stoi_pad _ _

theorem Double.Lawful.pad {F : Type} {T : Double F} (h : T.Lawful) (k : Nat) (s : List Char) :
    T.stod (List.replicate k ' ' ++ s) = T.stod s := by
  induction k with
  | zero => rfl
  | succ k ih => rw [List.replicate_succ, List.cons_append, h.blank, ih]

theorem mem_padLeft {w : Nat} {s : List Char} {c : Char} (h : c ∈ padLeft w s) : c = ' ' ∨ c ∈ s := by
  unfold padLeft at h
  rcases List.mem_append.mp h with h | h
  · exact Or.inl (List.mem_replicate.mp h).2
  · exact Or.inr h

/-! ## parse_comma_separated_list -/

/-- What the callback is really given: entry number `idx` starting at position `p`, where all entries but the last are cut
off only `p` characters too late. -/
def passed {σ : Type} (cb : Nat → List Char → σ → Res σ) : Nat → Nat → List (List Char) → σ → Res σ
  | _, _, [], s => .ok s
  | _, idx, [e], s => cb idx e s
  | p, idx, e :: e' :: es, s => do
    let s ← cb idx (e ++ (',' :: join ',' (e' :: es)).take p) s
    passed cb (p + e.length + 1) (idx + 1) (e' :: es) s

theorem toSize_nat {n : Nat} (h : n < 2 ^ 64) : Network.toSize (n : Int) = n := by
  unfold Network.toSize; omega

theorem toInt32_nat {n : Nat} (h : n < 2 ^ 31) : Network.toInt32 (n : Int) = n := by
  unfold Network.toInt32
  rw [Int.bmod_def]
  split <;> omega

theorem parseList_aux {σ : Type} {str : List Char} (cb : Nat → List Char → σ → Res σ) (hlen : str.length < 2 ^ 31) :
    ∀ (es : List (List Char)) (fuel idx p : Nat) (posCur : Int) (s : σ), es ≠ [] → (∀ e ∈ es, ',' ∉ e) → es.length ≤ fuel →
      p ≤ str.length → posCur + 1 = p → str.drop p = join ',' es →
      parseList str cb fuel idx posCur s = passed cb p idx es s := by
  intro es
  induction es with
  | nil => intro _ _ _ _ _ h; exact absurd rfl h
  | cons e es ih =>
    intro fuel idx p posCur s _ hcl hf hp hpos hd
    obtain ⟨fuel, rfl⟩ : ∃ f, fuel = f + 1 := ⟨fuel - 1, by simp at hf; omega⟩
    have he : ',' ∉ e := hcl e (by simp)
    have hsz : Network.toSize (posCur + 1) = p := by rw [hpos]; exact toSize_nat (by omega)
    cases es with
    | nil =>
      simp only [join] at hd
      have hfind : find str ',' p = npos := find_none (by rw [hd]; exact he)
      have hel : e.length ≤ npos := by
        have := congrArg List.length hd
        simp at this; rw [npos_eq]; omega
      simp only [parseList, hsz, hfind, substr_le hp, hd, List.take_of_length_le hel, Res.bind_ok, if_true]
      unfold passed
      cases cb idx e s <;> rfl
    | cons e' es =>
      rw [join] at hd
      have hfind : find str ',' p = p + e.length := find_some hd he
      have hle := drop_eq_length hd
      have hne : ¬ (p + e.length = npos) := by rw [npos_eq]; omega
      have htake : (str.drop p).take (p + e.length) = e ++ (',' :: join ',' (e' :: es)).take p := by
        rw [hd, Nat.add_comm, List.take_length_add_append]
      simp only [parseList, hsz, hfind, substr_le hp, htake, Res.bind_ok, hne, if_false, passed]
      rw [toInt32_nat (by omega)]
      cases cb idx (e ++ (',' :: join ',' (e' :: es)).take p) s with
      | error err => rfl
      | ok s' =>
        exact ih fuel (idx + 1) (p + e.length + 1) _ s' (by simp) (fun x hx => hcl x (by simp [hx])) (by simp at hf ⊢; omega) hle
          (by push_cast; ring) (drop_next hd)

theorem split_length_le (c : Char) (s : List Char) : (split c s).length ≤ s.length + 1 := by
  induction s with
  | nil => simp [split]
  | cons x xs ih =>
    unfold split
    split
    · simpa using ih
    · split
      · simp
      · rename_i h; rw [h] at ih; simp at ih ⊢; omega

theorem parse_eq {σ : Type} {str : List Char} (cb : Nat → List Char → σ → Res σ) (hlen : str.length < 2 ^ 31) (s : σ) :
    parseCommaSeparatedList str cb s = passed cb 0 0 (split ',' str) s :=
  parseList_aux cb hlen _ _ 0 0 (-1) s (split_ne_nil _ _) (split_clean _ _) (split_length_le _ _) (Nat.zero_le _) rfl
    (by rw [List.drop_zero, join_split])

/-- Numbered version of `each`. -/
def eachIdx {α σ : Type} (f : Nat → α → σ → Res σ) : Nat → List α → σ → Res σ
  | _, [], s => .ok s
  | i, a :: l, s => do
    let s ← f i a s
    eachIdx f (i + 1) l s

/-- A callback that stops reading at a comma does not notice the difference. -/
theorem passed_eq {σ : Type} {cb : Nat → List Char → σ → Res σ}
    (hcb : ∀ i e r s, ',' ∉ e → cb i (e ++ ',' :: r) s = cb i e s) :
    ∀ (es : List (List Char)) (p idx : Nat) (s : σ), (∀ e ∈ es, ',' ∉ e) → passed cb p idx es s = eachIdx cb idx es s := by
  intro es
  induction es with
  | nil => intros; rfl
  | cons e es ih =>
    intro p idx s h
    cases es with
    | nil => simp only [passed, eachIdx]; cases cb idx e s <;> rfl
    | cons e' es =>
      have h1 : cb idx (e ++ (',' :: join ',' (e' :: es)).take p) s = cb idx e s := by
        cases p with
        | zero => simp
        | succ p => rw [List.take_succ_cons]; exact hcb _ _ _ _ (h e (by simp))
      rw [passed, eachIdx, h1]
      cases cb idx e s with
      | error err => rfl
      | ok s' => exact ih _ _ _ (fun x hx => h x (by simp [hx]))

theorem split_lines {c : Char} : ∀ (ls : List (List Char)), (∀ l ∈ ls, c ∉ l) → ∀ r,
    split c (ls.flatMap (fun l => l ++ [c]) ++ r) = ls ++ split c r := by
  intro ls
  induction ls with
  | nil => intro _ r; rfl
  | cons l ls ih =>
    intro h r
    rw [List.flatMap_cons, List.append_assoc, List.append_assoc, List.singleton_append, split_append (h l (by simp)),
      ih (fun x hx => h x (by simp [hx])), List.cons_append]

theorem join_append {c : Char} : ∀ (xs ys : List (List Char)), xs ≠ [] → ys ≠ [] →
    join c (xs ++ ys) = join c xs ++ c :: join c ys := by
  intro xs
  induction xs with
  | nil => intro _ h; exact absurd rfl h
  | cons x xs ih =>
    intro ys _ hy
    cases xs with
    | nil =>
      obtain ⟨y, ys, rfl⟩ := List.exists_cons_of_ne_nil hy
      rfl
    | cons x' xs =>
      rw [List.cons_append, List.cons_append, join, join, ← List.cons_append, ih ys (by simp) hy, List.append_assoc, List.cons_append]

end Text
end Seldon

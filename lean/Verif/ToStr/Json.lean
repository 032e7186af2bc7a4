import Verif.ToStr.Concrete
/-!
C127: numbers in JSON texts: `json_generator` writes them with `to_string`, not precise.
-/
namespace Verif.ToStr
open Spec
open Verif.Json (generate gen genElems genMembers parse)
open Verif.Json.Spec (Value Storable Number IntPart FracPart ExpPart IsDigit)

/-- models: adobe/json.hpp:551-554 `generate_(double)`: the bytes. -/
def jsonText (x : Dbl) : List Nat := ((toStringOut x false).getD []).map Char.toNat

theorem jsonText_eq (x : Dbl) : jsonText x = (gText 15 x.neg x.abs).map Char.toNat := by
  unfold jsonText
  rw [(toStringOut_some x false).1]
  rfl

theorem isDigit_toNat {c : Char} (h : c.isDigit = true) : IsDigit c.toNat := by
  simp only [Char.isDigit, Bool.and_eq_true, decide_eq_true_eq] at h
  exact ⟨h.1, h.2⟩

theorem digits_map {s : Str} (h : Digits s) : ∀ c ∈ s.map Char.toNat, IsDigit c := by
  intro c hc
  obtain ⟨d, hd, rfl⟩ := List.mem_map.mp hc
  exact isDigit_toNat (h d hd)

/-- No leading zeros. -/
theorem intPart_toDigits (n : Nat) : IntPart ((Nat.toDigits 10 n).map Char.toNat) := by
  have lead : ∀ n : Nat, 0 < n → ∃ c s, Nat.toDigits 10 n = c :: s ∧ 0x31 ≤ c.toNat := by
    intro n
    induction n using Nat.strongRecOn with
    | _ n ih =>
      intro h
      by_cases hb : n < 10
      · rw [Nat.toDigits_of_lt_base hb]
        refine ⟨_, [], rfl, ?_⟩
        match n, h, hb with
        | 1, _, _ | 2, _, _ | 3, _, _ | 4, _, _ | 5, _, _ | 6, _, _ | 7, _, _ | 8, _, _ | 9, _, _ => decide
      · rw [Nat.toDigits_of_base_le (by decide) (by omega)]
        obtain ⟨c, s, e, hc⟩ := ih (n / 10) (by omega) (by omega)
        exact ⟨c, s ++ _, by rw [e]; rfl, hc⟩
  rcases Nat.eq_zero_or_pos n with rfl | h
  · rw [Nat.toDigits_zero]; exact .zero
  · obtain ⟨c, s, e, hc⟩ := lead n h
    have hd := digits_map (digits_toDigits n)
    rw [e] at hd ⊢
    exact .digits _ _ hc (hd c.toNat (by simp)).2 fun d hd' => hd d (by simp at hd' ⊢; exact Or.inr hd')

theorem pointText_number (dec k : Nat) : ∃ i f, (pointText dec k).map Char.toNat = i ++ f ∧ IntPart i ∧ FracPart f := by
  have hf := digits_map (digits_strip (digits_pad dec (k % 10 ^ dec)))
  unfold pointText
  refine ⟨_, _, List.map_append, intPart_toDigits _, ?_⟩
  split
  · exact .none
  · rename_i hne
    generalize strip (pad dec (k % 10 ^ dec)) = f at hf hne
    cases f with
    | nil => exact absurd rfl hne
    | cons c f => exact .some _ _ (hf _ (by simp)) fun d hd => hf d (by simp at hd ⊢; exact Or.inr hd)

theorem expText_number (x : Int) : ExpPart ((expText x).map Char.toNat) := by
  have hd : ∀ c ∈ ((if x.natAbs < 10 then ['0'] else []) ++ Nat.toDigits 10 x.natAbs).map Char.toNat, IsDigit c := by
    apply digits_map
    intro c hc
    rcases List.mem_append.mp hc with h | h
    · split at h
      · rw [List.mem_singleton.mp h]; decide
      · cases h
    · exact digits_toDigits _ c h
  have hs : (if x < 0 then '-' else '+').toNat = 0x2D ∨ (if x < 0 then '-' else '+').toNat = 0x2B := by
    split
    · exact Or.inl rfl
    · exact Or.inr rfl
  unfold expText
  rw [List.cons_append, List.cons_append, List.map_cons, List.map_cons]
  generalize he : ((if x.natAbs < 10 then ['0'] else []) ++ Nat.toDigits 10 x.natAbs).map Char.toNat = l at hd ⊢
  cases l with
  | nil => simp at he
  | cons d ds =>
    exact ExpPart.some 0x65 [(if x < 0 then '-' else '+').toNat] d ds (Or.inl rfl) (by rcases hs with h | h <;> simp [h]) (hd _ (by simp))
      fun c hc => hd c (List.mem_cons_of_mem _ hc)

/-- **C127** – what is written for a number is a number of JSON (RFC 8259), for every finite double. -/
theorem C127_number (x : Dbl) : Number (jsonText x) := by
  rw [jsonText_eq]
  unfold gText
  rw [List.map_append]
  have hs : ((if x.neg then ['-'] else [] : Str).map Char.toNat) = [] ∨ ((if x.neg then ['-'] else [] : Str).map Char.toNat) = [0x2D] := by
    split
    · right; decide
    · left; rfl
  generalize (if x.neg then ['-'] else [] : Str).map Char.toNat = sg at hs
  split
  · have := Number.mk sg [0x30] [] [] hs .zero .none .none
    simpa using this
  · generalize parts 15 x.abs = kx
    obtain ⟨k, e⟩ := kx
    simp only
    split
    · obtain ⟨i, f, h, hi, hf⟩ := pointText_number ((15 : ℕ) - 1 - e).toNat k
      rw [h]
      have := Number.mk sg i f [] hs hi hf .none
      simpa using this
    · obtain ⟨i, f, h, hi, hf⟩ := pointText_number (15 - 1) k
      rw [List.map_append, h]
      have := Number.mk sg i f _ hs hi hf (expText_number e)
      simpa [List.append_assoc] using this

/-- The characters of bytes. -/
def chars (t : List Nat) : Str := t.map Char.ofNat

theorem chars_map (s : Str) : chars (s.map Char.toNat) = s := by
  unfold chars
  induction s with
  | nil => rfl
  | cons c s ih => simp only [List.map_cons, Char.ofNat_toNat]; rw [ih]

/-- A reader of numbers like `strtod`: correctly rounded (any way to break ties), and the sign is that of the text, also for zero. -/
def Reader (strtod : List Nat → Option Dbl) : Prop :=
  ∀ t d, number (chars t) = some d → |d| < 2 ^ 1023 → ∃ x, strtod t = some x ∧ ReadsAs d x.val ∧ (x.neg = true ↔ t.head? = some '-'.toNat)

/-- Zero, or neither very small nor very large. -/
def Ordinary (x : Dbl) : Prop := x.abs = 0 ∨ (2 : ℚ) ^ (-1021 : ℤ) ≤ x.abs ∧ x.abs ≤ 2 ^ 1022

theorem partsVal_half {p : Nat} (hp : 2 ≤ p) {q : ℚ} (hq : 0 < q) : q / 2 ≤ partsVal p q ∧ partsVal p q < 2 * q := by
  have h1 := abs_le.mp (parts_error (p := p) (by omega) hq)
  obtain ⟨h2, -⟩ := log_le hq
  have h3 : (10 : ℚ) ^ (Int.log 10 q - p + 1) ≤ 10 ^ Int.log 10 q := zpow_le_zpow_right₀ (by norm_num) (by omega)
  constructor <;> linarith [h1.1, h1.2]

theorem head_gText (p : Nat) (x : Dbl) : ((gText p x.neg x.abs).map Char.toNat).head? = some '-'.toNat ↔ x.neg = true := by
  unfold gText
  by_cases h : x.neg = true
  · simp [h]
  · rw [iff_false_right h, if_neg h, List.nil_append]
    have key : ∀ s : Str, (∃ c t, s = c :: t ∧ c.isDigit = true) → ¬ (s.map Char.toNat).head? = some '-'.toNat := by
      rintro _ ⟨c, t, rfl, hc⟩ e
      simp only [List.map_cons, List.head?_cons, Option.some.injEq] at e
      have := (isDigit_toNat hc).1
      rw [e] at this
      revert this
      decide
    apply key
    split
    · exact ⟨'0', [], rfl, by decide⟩
    · generalize parts p x.abs = kx
      obtain ⟨k, e⟩ := kx
      simp only
      split
      · exact pointText_head _ _
      · obtain ⟨c, s, e', hc⟩ := pointText_head (p - 1) k
        exact ⟨c, s ++ expText e, by rw [e']; rfl, hc⟩

set_option exponentiation.threshold 2000 in
/-- Reading a written number and writing it again gives the same text. -/
theorem reader_text {strtod : List Nat → Option Dbl} (hr : Reader strtod) {x : Dbl} (hx : Ordinary x) :
    ∃ x', strtod (jsonText x) = some x' ∧ jsonText x' = jsonText x := by
  have hn := number_gText (p := 15) (by decide) x.neg x.abs_nonneg
  have hc : number (chars (jsonText x)) = number (gText 15 x.neg x.abs) := by rw [jsonText_eq, chars_map]
  rw [← hc] at hn
  have hb : |(let y := if x.abs = 0 then 0 else partsVal 15 x.abs; if x.neg then -y else y)| < 2 ^ 1023 := by
    have h1 : |(if x.neg then -(if x.abs = 0 then 0 else partsVal 15 x.abs) else (if x.abs = 0 then 0 else partsVal 15 x.abs))| =
        if x.abs = 0 then 0 else partsVal 15 x.abs := by
      have h0 : 0 ≤ if x.abs = 0 then 0 else partsVal 15 x.abs := by
        split
        · exact le_refl _
        · rename_i h
          exact (partsVal_pos (by decide) (lt_of_le_of_ne x.abs_nonneg (Ne.symm h))).le
      split
      · rw [abs_neg, abs_of_nonneg h0]
      · rw [abs_of_nonneg h0]
    simp only
    rw [h1]
    split
    · positivity
    · rename_i h
      have hpos : 0 < x.abs := lt_of_le_of_ne x.abs_nonneg (Ne.symm h)
      rcases hx with hx | hx
      · exact absurd hx h
      · have := (partsVal_half (p := 15) (by decide) hpos).2
        have e : (2 : ℚ) ^ 1023 = 2 * 2 ^ 1022 := by rw [← pow_succ']
        rw [e]
        generalize (2 : ℚ) ^ 1022 = w at hx
        linarith [hx.2]
  obtain ⟨x', hs, hra, hneg⟩ := hr _ _ hn hb
  refine ⟨x', hs, ?_⟩
  have hsign : x'.neg = x.neg := by
    rw [Bool.eq_iff_iff, hneg, jsonText_eq, head_gText]
  by_cases h0 : x.abs = 0
  · have h1 : ReadsAs 0 x'.val := by
      simp only [h0, if_true, neg_zero, ite_self] at hra
      exact hra
    have h2 : x'.val = 0 := by simpa using h1.2 0 binary_zero
    have h3 : x'.abs = 0 := by rw [← x'.abs_val, h2]; simp
    rw [jsonText_eq, jsonText_eq, hsign, h0, h3]
  · have hpos : 0 < x.abs := lt_of_le_of_ne x.abs_nonneg (Ne.symm h0)
    have hy := partsVal_pos (p := 15) (by decide) hpos
    have hhalf := (partsVal_half (p := 15) (by decide) hpos).1
    rcases hx with hx | hx
    · exact absurd hx h0
    · have hlow : (2 : ℚ) ^ (-1022 : ℤ) ≤ partsVal 15 x.abs := by
        have e : (2 : ℚ) ^ (-1021 : ℤ) = 2 ^ (-1022 : ℤ) * 2 := by
          rw [← zpow_add_one₀ (by norm_num)]; norm_num
        rw [e] at hx
        generalize (2 : ℚ) ^ (-1022 : ℤ) = w at hx
        linarith [hx.1]
      have hnum : number (gText 15 x.neg x.abs) = some (if x.neg then -partsVal 15 x.abs else partsVal 15 x.abs) := by
        rw [number_gText (by decide) x.neg x.abs_nonneg]
        simp only [if_neg h0]
      have hra' : ReadsAs (if x.neg then -partsVal 15 x.abs else partsVal 15 x.abs) x'.val := by
        simp only [if_neg h0] at hra
        exact hra
      have := C125_text_round_trip_partial (x := x) (toStringOut_some x false).1 hnum (by
        split
        · rw [abs_neg, abs_of_pos hy]; exact hlow
        · rw [abs_of_pos hy]; exact hlow) hra'
      unfold jsonText
      rw [this, (toStringOut_some x false).1]

mutual
/-- The value with other numbers. -/
def mapNum (f : Dbl → Dbl) : Value Dbl → Value Dbl
  | .null => .null
  | .bool b => .bool b
  | .num x => .num (f x)
  | .str s => .str s
  | .arr vs => .arr (mapNums f vs)
  | .obj ms => .obj (mapMembers f ms)
def mapNums (f : Dbl → Dbl) : List (Value Dbl) → List (Value Dbl)
  | [] => []
  | v :: vs => mapNum f v :: mapNums f vs
def mapMembers (f : Dbl → Dbl) : List (List Nat × Value Dbl) → List (List Nat × Value Dbl)
  | [] => []
  | (k, v) :: ms => (k, mapNum f v) :: mapMembers f ms
end

mutual
/-- All numbers are ordinary; the names of the members of an object are different and without 0. -/
def Plain : Value Dbl → Prop
  | .num x => Ordinary x
  | .arr vs => PlainAll vs
  | .obj ms => (ms.map Prod.fst).Nodup ∧ PlainMembers ms
  | _ => True
def PlainAll : List (Value Dbl) → Prop
  | [] => True
  | v :: vs => Plain v ∧ PlainAll vs
def PlainMembers : List (List Nat × Value Dbl) → Prop
  | [] => True
  | (k, v) :: ms => 0 ∉ k ∧ Plain v ∧ PlainMembers ms
end

mutual
theorem gen_mapNum {f : Dbl → Dbl} (hf : ∀ x, Ordinary x → jsonText (f x) = jsonText x) (v : Value Dbl) (h : Plain v) :
    gen jsonText (mapNum f v) = gen jsonText v := by
  match v with
  | .null | .bool _ | .str _ => rfl
  | .num x => funext n; simp only [mapNum, gen]; exact hf x h
  | .arr vs => funext n; simp only [mapNum, gen, gen_mapNums hf vs h]
  | .obj ms => funext n; simp only [mapNum, gen, gen_mapMembers hf ms h.2]
theorem gen_mapNums {f : Dbl → Dbl} (hf : ∀ x, Ordinary x → jsonText (f x) = jsonText x) (vs : List (Value Dbl)) (h : PlainAll vs) :
    genElems jsonText (mapNums f vs) = genElems jsonText vs := by
  match vs with
  | [] => rfl
  | v :: vs => simp only [mapNums, genElems, gen_mapNum hf v h.1, gen_mapNums hf vs h.2]
theorem gen_mapMembers {f : Dbl → Dbl} (hf : ∀ x, Ordinary x → jsonText (f x) = jsonText x) (ms : List (List Nat × Value Dbl)) (h : PlainMembers ms) :
    genMembers jsonText (mapMembers f ms) = genMembers jsonText ms := by
  match ms with
  | [] => rfl
  | (k, v) :: ms => simp only [mapMembers, genMembers, gen_mapNum hf v h.2.1, gen_mapMembers hf ms h.2.2]
end

theorem mapMembers_names (f : Dbl → Dbl) (ms : List (List Nat × Value Dbl)) : (mapMembers f ms).map Prod.fst = ms.map Prod.fst := by
  induction ms with
  | nil => rfl
  | cons m ms ih => obtain ⟨k, v⟩ := m; simp [mapMembers, ih]

theorem plain_names (ms : List (List Nat × Value Dbl)) (h : PlainMembers ms) : ∀ k ∈ ms.map Prod.fst, 0 ∉ k := by
  induction ms with
  | nil => intro k hk; cases hk
  | cons m ms ih =>
    obtain ⟨k, v⟩ := m
    intro k' hk
    rcases List.mem_cons.mp hk with rfl | hk
    · exact h.1
    · exact ih h.2.2 k' hk

mutual
theorem storable_mapNum {strtod : List Nat → Option Dbl} {f : Dbl → Dbl}
    (hf : ∀ x, Ordinary x → strtod (jsonText x) = some (f x) ∧ jsonText (f x) = jsonText x) (v : Value Dbl) (h : Plain v) :
    Storable strtod jsonText (mapNum f v) := by
  match v with
  | .null => exact .null
  | .bool b => exact .bool b
  | .str s => exact .str s
  | .num x => exact .num _ (C127_number _) (by rw [(hf x h).2]; exact (hf x h).1)
  | .arr vs => exact .arr _ (storable_mapNums hf vs h)
  | .obj ms =>
    refine .obj _ (storable_mapMembers hf ms h.2) ?_ ?_
    · intro m hm
      have := List.mem_map_of_mem (f := Prod.fst) hm
      rw [mapMembers_names] at this
      exact plain_names ms h.2 _ this
    · rw [mapMembers_names]; exact h.1
theorem storable_mapNums {strtod : List Nat → Option Dbl} {f : Dbl → Dbl}
    (hf : ∀ x, Ordinary x → strtod (jsonText x) = some (f x) ∧ jsonText (f x) = jsonText x) (vs : List (Value Dbl)) (h : PlainAll vs) :
    ∀ v ∈ mapNums f vs, Storable strtod jsonText v := by
  match vs with
  | [] => intro v hv; cases hv
  | v :: vs =>
    intro w hw
    rcases List.mem_cons.mp hw with rfl | hw
    · exact storable_mapNum hf v h.1
    · exact storable_mapNums hf vs h.2 w hw
theorem storable_mapMembers {strtod : List Nat → Option Dbl} {f : Dbl → Dbl}
    (hf : ∀ x, Ordinary x → strtod (jsonText x) = some (f x) ∧ jsonText (f x) = jsonText x) (ms : List (List Nat × Value Dbl)) (h : PlainMembers ms) :
    ∀ m ∈ mapMembers f ms, Storable strtod jsonText m.2 := by
  match ms with
  | [] => intro v hv; cases hv
  | (k, v) :: ms =>
    intro w hw
    rcases List.mem_cons.mp hw with rfl | hw
    · exact storable_mapNum hf v h.2.1
    · exact storable_mapMembers hf ms h.2.2 w hw
end

/-- **C127** – the JSON text of an array or object of doubles is parsed without error, and generating the result gives the same text again: whatever
correct reader of numbers is used, if the numbers are neither very small nor very large. -/
theorem C127_stable_partial {strtod : List Nat → Option Dbl} (hr : Reader strtod) {v : Value Dbl} (h : Plain v) {n : Nat} {t : List Nat}
    (ht : generate jsonText v n = some t) : ∃ v', parse strtod (t ++ [0]) = .ok v' [0] ∧ generate jsonText v' n = some t := by
  have hf : ∀ x, Ordinary x → strtod (jsonText x) = some ((strtod (jsonText x)).getD x) ∧ jsonText ((strtod (jsonText x)).getD x) = jsonText x := by
    intro x hx
    obtain ⟨x', h1, h2⟩ := reader_text hr hx
    rw [h1]
    exact ⟨rfl, h2⟩
  have hg := gen_mapNum (fun x hx => (hf x hx).2) v h
  have hgen : generate jsonText (mapNum (fun x => (strtod (jsonText x)).getD x) v) n = some t := by
    rw [← ht]
    cases v <;> simp only [mapNum, generate, Option.some.injEq] <;> first | rfl | skip
    · exact congrFun hg n
    · exact congrFun hg n
  exact ⟨_, Json.C31_generated_text_parses_back strtod jsonText _ (storable_mapNum hf v h) n t hgen, hgen⟩

/-- **C127** – but the numbers may change: the arrays with the doubles 0.3 and 0.1 + 0.2 have the same text. -/
theorem C127_same_text_violated (n : Nat) :
    ∃ x x', x.val ≠ x'.val ∧ generate jsonText (.arr [.num x]) n = generate jsonText (.arr [.num x']) n := by
  refine ⟨x3, x3', x3_ne, ?_⟩
  have : jsonText x3 = jsonText x3' := by unfold jsonText; rw [x3_same]
  simp only [generate, gen, genElems, Verif.Json.list, this]

/-- The largest double. -/
def xmax : Dbl := ⟨false, 2 ^ 53 - 1, 971, by decide, by decide, by decide⟩

set_option exponentiation.threshold 2000 in
/-- **C127** – the text of the largest double, `1.79769313486232e+308`, denotes a number beyond the range of double. -/
theorem C127_overflow_violated : ∃ s y, toStringOut xmax false = some s ∧ number s = some y ∧ ∀ x : Dbl, ¬ ReadsAs y x.val := by
  obtain ⟨s, hs, hn⟩ := number_toStringOut xmax false
  refine ⟨s, _, hs, hn, fun x hx => ?_⟩
  have e : xmax.abs = (2 ^ 53 - 1) * 2 ^ 971 := by
    have := zpow_natCast (2 : ℚ) 971
    unfold Dbl.abs xmax
    push_cast at this ⊢
    rw [this]; norm_num
  have hp : parts 15 xmax.abs = (179769313486232, 308) := by
    have e1 : (10 : ℚ) ^ (308 : ℤ) = 10 ^ 308 := by exact_mod_cast zpow_natCast (10 : ℚ) 308
    have e2 : (10 : ℚ) ^ (308 + 1 : ℤ) = 10 ^ 309 := by exact_mod_cast zpow_natCast (10 : ℚ) 309
    have e3 : (10 : ℚ) ^ ((308 : ℤ) - (15 : ℕ) + 1) = 10 ^ 294 := zpow_natCast (10 : ℚ) 294
    apply parts_eq (by decide)
    · rw [e, e1]; norm_num
    · rw [e, e2]; norm_num
    · rw [e, e3, abs_lt]; constructor <;> norm_num
    · norm_num
  have hne : xmax.neg = false := rfl
  have h0 : xmax.abs ≠ 0 := by rw [e]; positivity
  have e3 : (10 : ℚ) ^ ((308 : ℤ) - (15 : ℕ) + 1) = 10 ^ 294 := zpow_natCast (10 : ℚ) 294
  have hy : partsVal 15 xmax.abs = 179769313486232 * 10 ^ 294 := by
    unfold partsVal; rw [hp]; simp only; rw [e3]; norm_num
  simp only [hne, Bool.false_eq_true, if_false, if_neg h0, hy] at hx
  have h1 : (2 : ℚ) ^ 1024 ≤ 179769313486232 * 10 ^ 294 := by norm_num
  have h2 : x.val < 2 ^ 1024 := by
    refine lt_of_le_of_lt (le_trans (le_abs_self _) (le_of_eq x.abs_val)) ?_
    unfold Dbl.abs
    have h2 : (2 : ℚ) ^ x.e ≤ 2 ^ (971 : ℤ) := zpow_le_zpow_right₀ (by norm_num) x.he'
    have h3 : (x.m : ℚ) < 2 ^ 53 := by exact_mod_cast x.hm
    have h4 : (2 : ℚ) ^ (971 : ℤ) = 2 ^ 971 := by exact_mod_cast zpow_natCast (2 : ℚ) 971
    calc (x.m : ℚ) * 2 ^ x.e ≤ x.m * 2 ^ (971 : ℤ) := by gcongr
      _ < 2 ^ 53 * 2 ^ (971 : ℤ) := by gcongr
      _ = 2 ^ 1024 := by rw [h4, ← pow_add]
  have h3 := hx.2 (2 ^ 1024) ⟨2 ^ 52, 972, by norm_num, by norm_num, by
    have e : (2 : ℚ) ^ (972 : ℤ) = 2 ^ 972 := zpow_natCast (2 : ℚ) 972
    rw [e]; norm_num⟩
  rw [abs_of_nonneg (by linarith), abs_of_nonneg (by linarith)] at h3
  linarith

end Verif.ToStr

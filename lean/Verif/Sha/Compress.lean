import Verif.Sha.Lemmas
/-
The digest of a block is the compression function of the standard.
-/
namespace Verif.Sha
open Spec

variable {w : Nat}

theorem extend_spec (f : List (BitVec w) → Nat → BitVec w) (W : Nat → BitVec w)
    (hf : ∀ s : List (BitVec w), 16 ≤ s.length → (∀ t < s.length, s.getD t 0 = W t) → f s s.length = W s.length) :
    ∀ (n : Nat) (s : List (BitVec w)), 16 ≤ s.length → (∀ t < s.length, s.getD t 0 = W t) → ∀ t < s.length + n, (extend f n s).getD t 0 = W t := by
  intro n
  induction n with
  | zero => intro s _ h t ht; exact h t ht
  | succ n ih =>
    intro s h16 h t ht
    rw [extend]
    apply ih
    · rw [List.length_append]; omega
    · intro t ht
      rw [List.length_append, List.length_singleton] at ht
      by_cases hlt : t < s.length
      · rw [List.getD_append _ _ _ _ hlt, h t hlt]
      · have : t = s.length := by omega
        subst this
        rw [List.getD_append_right _ _ _ _ (Nat.le_refl _), Nat.sub_self, List.getD_cons_zero, hf s h16 h]
    · rw [List.length_append, List.length_singleton]; omega

theorem rotl_eq {n : Nat} (hn : n < w) (x : BitVec w) : rotl n x = x.rotateLeft n := by
  unfold rotl BitVec.rotateLeft BitVec.rotateLeftAux
  rw [Nat.mod_eq_of_lt hn]

theorem rotr_eq {n : Nat} (hn : n < w) (x : BitVec w) : rotr n x = x.rotateRight n := by
  unfold rotr BitVec.rotateRight BitVec.rotateRightAux
  rw [Nat.mod_eq_of_lt hn]

theorem foldl_congr_mem {α β : Type} {f g : α → β → α} : ∀ (l : List β) (a : α), (∀ a, ∀ b ∈ l, f a b = g a b) → l.foldl f a = l.foldl g a := by
  intro l
  induction l with
  | nil => intros; rfl
  | cons b l ih =>
    intro a h
    rw [List.foldl_cons, List.foldl_cons, h a b (by simp), ih _ (fun a b hb => h a b (List.mem_cons_of_mem _ hb))]

/-! ### SHA-1 -/

theorem twenty_eq (s : List (BitVec 32)) (F : BitVec 32 → BitVec 32 → BitVec 32 → BitVec 32) (k : BitVec 32)
    (r : BitVec 32 × BitVec 32 × BitVec 32 × BitVec 32 × BitVec 32) (t : Nat) :
    twentyRounds s F k r t = (List.range' t 20).foldl (aRound s F k) r := by
  unfold twentyRounds fiveRounds
  generalize aRound s F k = f
  simp only [List.range', List.foldl_cons, List.foldl_nil, Nat.add_assoc, Nat.add_zero, Nat.zero_add, Nat.reduceAdd]

theorem range_80 : List.range 80 = List.range' 0 20 ++ (List.range' 20 20 ++ (List.range' 40 20 ++ List.range' 60 20)) := by decide

theorem aRound_eq {s M : List (BitVec 32)} {F : BitVec 32 → BitVec 32 → BitVec 32 → BitVec 32} {k : BitVec 32} {t : Nat}
    (hs : s.getD t 0 = W1 M t) (hF : ∀ x y z, F x y z = f1 t x y z) (hk : k = K1 t)
    (r : BitVec 32 × BitVec 32 × BitVec 32 × BitVec 32 × BitVec 32) : aRound s F k r t = step1 M r t := by
  obtain ⟨a, b, c, d, e⟩ := r
  simp only [aRound, step1, hs, hF, hk, rotl_eq (show 5 < 32 by omega), rotl_eq (show 30 < 32 by omega)]

theorem digest1_eq {H M : List (BitVec 32)} (hH : H.length = 5) (hM : M.length = 16) : digest1 H M = compress1 H M := by
  match H, hH with
  | [a, b, c, d, e], _ =>
  have hs : ∀ t < 80, (extend (fun s t => rotl 1 (s.getD (t - 3) 0 ^^^ s.getD (t - 8) 0 ^^^ s.getD (t - 14) 0 ^^^ s.getD (t - 16) 0)) 64 M).getD t 0
      = W1 M t := by
    intro t ht
    refine extend_spec _ (W1 M) ?_ 64 M (by omega) ?_ t (by omega)
    · intro s h16 h
      rw [W1, if_neg (by omega), rotl_eq (by omega), h _ (by omega), h _ (by omega), h _ (by omega), h _ (by omega)]
    · intro t ht
      rw [W1, if_pos (by omega)]
  unfold digest1 compress1
  simp only [twenty_eq, List.getD_cons_zero, List.getD_cons_succ]
  rw [range_80, List.foldl_append, List.foldl_append, List.foldl_append]
  have p1 : ∀ r, (List.range' 0 20).foldl (aRound (extend (fun s t => rotl 1 (s.getD (t - 3) 0 ^^^ s.getD (t - 8) 0 ^^^ s.getD (t - 14) 0 ^^^ s.getD (t - 16) 0)) 64 M) ch 0x5a827999#32) r
      = (List.range' 0 20).foldl (step1 M) r := by
    intro r
    refine foldl_congr_mem _ _ fun r t ht => ?_
    rw [List.mem_range'_1] at ht
    refine aRound_eq (hs t (by omega)) (fun x y z => ?_) ?_ r
    · rw [f1, if_pos (by omega)]; rfl
    · rw [K1, if_pos (by omega)]
  have p2 : ∀ r, (List.range' 20 20).foldl (aRound (extend (fun s t => rotl 1 (s.getD (t - 3) 0 ^^^ s.getD (t - 8) 0 ^^^ s.getD (t - 14) 0 ^^^ s.getD (t - 16) 0)) 64 M) parity 0x6ed9eba1#32) r
      = (List.range' 20 20).foldl (step1 M) r := by
    intro r
    refine foldl_congr_mem _ _ fun r t ht => ?_
    rw [List.mem_range'_1] at ht
    refine aRound_eq (hs t (by omega)) (fun x y z => ?_) ?_ r
    · rw [f1, if_neg (by omega), if_pos (by omega)]; rfl
    · rw [K1, if_neg (by omega), if_pos (by omega)]
  have p3 : ∀ r, (List.range' 40 20).foldl (aRound (extend (fun s t => rotl 1 (s.getD (t - 3) 0 ^^^ s.getD (t - 8) 0 ^^^ s.getD (t - 14) 0 ^^^ s.getD (t - 16) 0)) 64 M) maj 0x8f1bbcdc#32) r
      = (List.range' 40 20).foldl (step1 M) r := by
    intro r
    refine foldl_congr_mem _ _ fun r t ht => ?_
    rw [List.mem_range'_1] at ht
    refine aRound_eq (hs t (by omega)) (fun x y z => ?_) ?_ r
    · rw [f1, if_neg (by omega), if_neg (by omega), if_pos (by omega)]; rfl
    · rw [K1, if_neg (by omega), if_neg (by omega), if_pos (by omega)]
  have p4 : ∀ r, (List.range' 60 20).foldl (aRound (extend (fun s t => rotl 1 (s.getD (t - 3) 0 ^^^ s.getD (t - 8) 0 ^^^ s.getD (t - 14) 0 ^^^ s.getD (t - 16) 0)) 64 M) parity 0xca62c1d6#32) r
      = (List.range' 60 20).foldl (step1 M) r := by
    intro r
    refine foldl_congr_mem _ _ fun r t ht => ?_
    rw [List.mem_range'_1] at ht
    refine aRound_eq (hs t (by omega)) (fun x y z => ?_) ?_ r
    · rw [f1, if_neg (by omega), if_neg (by omega), if_neg (by omega)]; rfl
    · rw [K1, if_neg (by omega), if_neg (by omega), if_neg (by omega)]
  rw [p1, p2, p3, p4]

/-! ### SHA-2 -/

/-- the traits `P` are the parameters `S` of the standard -/
structure Agree (P : Sha2 w) (S : Params w) : Prop where
  big0 : ∀ x, P.bigSigma0 x = big S.S0 x
  big1 : ∀ x, P.bigSigma1 x = big S.S1 x
  small0 : ∀ x, P.smallSigma0 x = small S.s0 x
  small1 : ∀ x, P.smallSigma1 x = small S.s1 x
  k : ∀ t < P.rounds, P.k.getD t 0 = S.K t
  rounds : P.rounds = S.rounds
  enough : 16 ≤ P.rounds

def Vars.list (v : Vars w) : List (BitVec w) := [v.a, v.b, v.c, v.d, v.e, v.f, v.g, v.h]

theorem round2_eq {P : Sha2 w} {S : Params w} (hA : Agree P S) {s M : List (BitVec w)} {t : Nat} (ht : t < P.rounds) (hs : s.getD t 0 = W2 S M t)
    (v : Vars w) : (round2 P s v t).list = step2 S M v.list t := by
  simp only [round2, step2, Vars.list, List.getD_cons_zero, List.getD_cons_succ, hA.big0, hA.big1, hA.k t ht, hs, ch, maj]

theorem digest2_eq {P : Sha2 w} {S : Params w} (hA : Agree P S) {H M : List (BitVec w)} (hH : H.length = 8) (hM : M.length = 16) :
    digest2 P H M = compress2 S H M := by
  match H, hH with
  | [a, b, c, d, e, f, g, h], _ =>
  have he := hA.enough
  have hs : ∀ t < P.rounds, (extend (fun s t => P.smallSigma1 (s.getD (t - 2) 0) + s.getD (t - 7) 0 + P.smallSigma0 (s.getD (t - 15) 0) +
      s.getD (t - 16) 0) (P.rounds - 16) M).getD t 0 = W2 S M t := by
    intro t ht
    refine extend_spec _ (W2 S M) ?_ (P.rounds - 16) M (by omega) ?_ t (by omega)
    · intro s h16 h
      rw [W2, if_neg (by omega), hA.small0, hA.small1, h _ (by omega), h _ (by omega), h _ (by omega), h _ (by omega)]
    · intro t ht
      rw [W2, if_pos (by omega)]
  have hfold : ∀ (l : List Nat) (v : Vars w), (∀ t ∈ l, t < P.rounds) →
      (l.foldl (round2 P (extend (fun s t => P.smallSigma1 (s.getD (t - 2) 0) + s.getD (t - 7) 0 + P.smallSigma0 (s.getD (t - 15) 0) +
        s.getD (t - 16) 0) (P.rounds - 16) M)) v).list = l.foldl (step2 S M) v.list := by
    intro l
    induction l with
    | nil => intros; rfl
    | cons t l ih =>
      intro v hl
      rw [List.foldl_cons, List.foldl_cons, ih _ (fun t ht => hl t (List.mem_cons_of_mem _ ht)),
        round2_eq hA (hl t (by simp)) (hs t (hl t (by simp)))]
  unfold digest2 compress2
  rw [← hA.rounds]
  have := hfold (List.range P.rounds) ⟨a, b, c, d, e, f, g, h⟩ (fun t ht => List.mem_range.1 ht)
  simp only [Vars.list] at this
  rw [← this]
  rfl

/-! ### the constants -/

theorem consts : init1 = H1 ∧ init224 = H224 ∧ init256 = H256 ∧ init384 = H384 ∧ init512 = H512 ∧
    k256 = (List.range 64).map K256 ∧ k512 = (List.range 80).map K512 := by
  refine ⟨?_, ?_, ?_, ?_, ?_, ?_, ?_⟩ <;> decide +kernel

theorem agree256 : Agree p256 P256 where
  big0 x := by simp only [p256, P256, big, rotr_eq (show 2 < 32 by omega), rotr_eq (show 13 < 32 by omega), rotr_eq (show 22 < 32 by omega)]
  big1 x := by simp only [p256, P256, big, rotr_eq (show 6 < 32 by omega), rotr_eq (show 11 < 32 by omega), rotr_eq (show 25 < 32 by omega)]
  small0 x := by simp only [p256, P256, small, rotr_eq (show 7 < 32 by omega), rotr_eq (show 18 < 32 by omega), shr]
  small1 x := by simp only [p256, P256, small, rotr_eq (show 17 < 32 by omega), rotr_eq (show 19 < 32 by omega), shr]
  k t ht := by
    have ht : t < 64 := ht
    show k256.getD t 0 = K256 t
    rw [consts.2.2.2.2.2.1]
    simp [List.getD_eq_getElem?_getD, ht]
  rounds := rfl
  enough := by decide

theorem agree512 : Agree p512 P512 where
  big0 x := by simp only [p512, P512, big, rotr_eq (show 28 < 64 by omega), rotr_eq (show 34 < 64 by omega), rotr_eq (show 39 < 64 by omega)]
  big1 x := by simp only [p512, P512, big, rotr_eq (show 14 < 64 by omega), rotr_eq (show 18 < 64 by omega), rotr_eq (show 41 < 64 by omega)]
  small0 x := by simp only [p512, P512, small, rotr_eq (show 1 < 64 by omega), rotr_eq (show 8 < 64 by omega), shr]
  small1 x := by simp only [p512, P512, small, rotr_eq (show 19 < 64 by omega), rotr_eq (show 61 < 64 by omega), shr]
  k t ht := by
    have ht : t < 80 := ht
    show k512.getD t 0 = K512 t
    rw [consts.2.2.2.2.2.2]
    simp [List.getD_eq_getElem?_getD, ht]
  rounds := rfl
  enough := by decide

/-! ### the hash functions -/

theorem foldl_digest {A B : List (BitVec w) → List (BitVec w) → List (BitVec w)} {n : Nat} (hAB : ∀ H M, H.length = n → M.length = 16 → A H M = B H M)
    (hlen : ∀ H M, H.length = n → (B H M).length = n) : ∀ (bs : List (List (BitVec w))) (H : List (BitVec w)), H.length = n →
    (∀ b ∈ bs, b.length = 16) → bs.foldl A H = bs.foldl B H := by
  intro bs
  induction bs with
  | nil => intros; rfl
  | cons b bs ih =>
    intro H hH hb
    rw [List.foldl_cons, List.foldl_cons, hAB H b hH (hb b (by simp)), ih _ (hlen H b hH) (fun b h => hb b (List.mem_cons_of_mem _ h))]

theorem hash_congr {A B : List (BitVec w) → List (BitVec w) → List (BitVec w)} {n : Nat} (hAB : ∀ H M, H.length = n → M.length = 16 → A H M = B H M)
    (hlen : ∀ H M, H.length = n → (B H M).length = n) {i : List (BitVec w)} (hi : i.length = n) (o : Nat) (m : List Bool) :
    Spec.hash A i o m = Spec.hash B i o m := by
  unfold Spec.hash
  rw [foldl_digest hAB hlen _ _ hi]
  intro b hb
  obtain ⟨x, _, rfl⟩ := List.mem_map.1 hb
  simp [words]

theorem compress1_length (H M : List (BitVec 32)) : (compress1 H M).length = 5 := by simp [compress1]

theorem step2_length (S : Params w) (M v : List (BitVec w)) (t : Nat) : (step2 S M v t).length = 8 := by simp [step2]

theorem compress2_length (S : Params w) (hr : 0 < S.rounds) (H M : List (BitVec w)) (hH : H.length = 8) : (compress2 S H M).length = 8 := by
  unfold compress2
  obtain ⟨n, hn⟩ : ∃ n, S.rounds = n + 1 := ⟨S.rounds - 1, by omega⟩
  rw [List.length_zipWith, hn, List.range_succ, List.foldl_append]
  simp [step2_length, hH]

theorem sha1_hash (m : List Bool) : Spec.hash sha1.digest sha1.init sha1.outLen m = Spec.sha1 m := by
  show Spec.hash digest1 init1 5 m = Spec.hash compress1 H1 5 m
  rw [consts.1]
  exact hash_congr (n := 5) (fun H M h1 h2 => digest1_eq h1 h2) (fun H M _ => compress1_length H M) rfl _ _

theorem sha224_hash (m : List Bool) : Spec.hash sha224.digest sha224.init sha224.outLen m = Spec.sha224 m := by
  show Spec.hash (digest2 p256) init224 7 m = Spec.hash (compress2 P256) H224 7 m
  rw [consts.2.1]
  exact hash_congr (n := 8) (fun H M h1 h2 => digest2_eq agree256 h1 h2) (fun H M h => compress2_length P256 (by decide) H M h) (by simp [H224]) _ _

theorem sha256_hash (m : List Bool) : Spec.hash sha256.digest sha256.init sha256.outLen m = Spec.sha256 m := by
  show Spec.hash (digest2 p256) init256 8 m = Spec.hash (compress2 P256) H256 8 m
  rw [consts.2.2.1]
  exact hash_congr (n := 8) (fun H M h1 h2 => digest2_eq agree256 h1 h2) (fun H M h => compress2_length P256 (by decide) H M h) (by simp [H256]) _ _

theorem sha384_hash (m : List Bool) : Spec.hash sha384.digest sha384.init sha384.outLen m = Spec.sha384 m := by
  show Spec.hash (digest2 p512) init384 6 m = Spec.hash (compress2 P512) H384 6 m
  rw [consts.2.2.2.1]
  exact hash_congr (n := 8) (fun H M h1 h2 => digest2_eq agree512 h1 h2) (fun H M h => compress2_length P512 (by decide) H M h) (by simp [H384]) _ _

theorem sha512_hash (m : List Bool) : Spec.hash sha512.digest sha512.init sha512.outLen m = Spec.sha512 m := by
  show Spec.hash (digest2 p512) init512 8 m = Spec.hash (compress2 P512) H512 8 m
  rw [consts.2.2.2.2.1]
  exact hash_congr (n := 8) (fun H M h1 h2 => digest2_eq agree512 h1 h2) (fun H M h => compress2_length P512 (by decide) H M h) (by simp [H512]) _ _

end Verif.Sha

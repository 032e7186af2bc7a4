import Verif.Forest.Lemmas
import Verif.Forest.History

namespace Verif.Forest
open Verif.Ring Forest

variable {α : Type}

/-- the linked structure represents the abstract state -/
structure Rep (s : St α) (A : AS α) : Prop where
  valid : ∀ t ∈ A.tails, Valid s.heap t (A.F t)
  disj : ∀ t ∈ A.tails, ∀ u ∈ A.tails, t ≠ u → ∀ n ∈ t :: (A.F t).pre, n ∉ u :: (A.F u).pre
  vals : s.heap.val = A.V
  live : ∀ t ∈ A.tails, (∀ n ∈ (A.F t).pre, ∃ v, A.V n = some v) ∧ A.V t = none
  size : ∀ t ∈ A.tails, s.size t = 0 ∨ s.size t = (A.F t).card
  leak : ∀ n v, A.V n = some v → ∃ t ∈ A.tails, n ∈ (A.F t).pre

theorem Rep.not_mem {s : St α} {A : AS α} (r : Rep s A) {n t : Nat} (hn : Fresh A n) (ht : t ∈ A.tails) : n ∉ t :: (A.F t).pre := by
  intro h
  rcases List.mem_cons.1 h with rfl | h
  · exact hn.2 ht
  · obtain ⟨v, hv⟩ := (r.live t ht).1 n h
    rw [hn.1] at hv; cases hv

/-! ### begin, empty, size cache -/

theorem begin_eq {h : Heap α} {t : Nat} {F : Forest Nat} (v : Valid h t F) : h.begin t = at_ t .top F :=
  (Valid.around (c := .top) (g := F) v).2

theorem at_ne_nil {t : Nat} {F : Forest Nat} : at_ t .top F = (t, false) ↔ F = .nil := by
  cases F with
  | nil => simp [at_, Ctx.rw]
  | cons n k r => simp [at_]

theorem sizeValid_eq {s : St α} {t : Nat} {F : Forest Nat} (v : Valid s.heap t F) :
    s.sizeValid t = decide (s.size t ≠ 0 ∨ F = .nil) := by
  unfold St.sizeValid Heap.empty
  rw [begin_eq v, end_, Bool.eq_iff_iff]
  simp [at_ne_nil]

theorem sizeValid_card {s : St α} {t : Nat} {F : Forest Nat} (v : Valid s.heap t F) (hz : s.size t = 0 ∨ s.size t = F.card) :
    s.sizeValid t = true → s.size t = F.card := by
  rw [sizeValid_eq v]
  simp only [decide_eq_true_eq]
  rintro (h | rfl)
  · rcases hz with h' | h'
    · exact absurd h' h
    · exact h'
  · rcases hz with h' | h'
    · rw [h']; rfl
    · exact h'

theorem sizeInvalid {s : St α} {t : Nat} {F : Forest Nat} (v : Valid s.heap t F) : s.sizeValid t ≠ true → s.size t = 0 ∧ F ≠ .nil := by
  rw [sizeValid_eq v]
  simp only [ne_eq, decide_eq_true_eq, not_or, not_not]
  exact id

/-! ### create -/

theorem Rep.create {s : St α} {A : AS α} (r : Rep s A) {t : Nat} (ht : Fresh A t) :
    Rep (s.create t) { A with tails := t :: A.tails, F := upd A.F t .nil } := by
  have hne : ∀ u ∈ A.tails, u ≠ t := by rintro u hu rfl; exact ht.2 hu
  have hF : ∀ u ∈ A.tails, upd A.F t Forest.nil u = A.F u := fun u hu => upd_ne _ _ _ _ (hne u hu)
  have hT : upd A.F t Forest.nil t = Forest.nil := upd_same _ _ _
  refine ⟨?_, ?_, r.vals, ?_, ?_, ?_⟩
  · intro u hu
    show Valid _ u (upd A.F t Forest.nil u)
    rcases List.mem_cons.1 hu with e | hu
    · rw [e, hT]
      refine ⟨⟨⟨?_, ?_⟩, trivial⟩, ?_, ?_, by simp⟩
      · simp [St.create, upd]
      · simp [St.create, upd]
      · simp [St.create, upd]
      · simp [St.create, upd]
    · rw [hF u hu]
      apply (r.valid u hu).congr
      intro p hp
      have hpt : p.1 ≠ t := by rintro e; rw [e] at hp; exact r.not_mem ht hu hp
      have : p ≠ (t, true) := by rintro rfl; exact hpt rfl
      have : p ≠ (t, false) := by rintro rfl; exact hpt rfl
      constructor <;> simp [St.create, upd, *]
  · intro u hu w hw hne' n hn
    change n ∈ u :: (upd A.F t Forest.nil u).pre at hn
    show n ∉ w :: (upd A.F t Forest.nil w).pre
    rcases List.mem_cons.1 hu with e | hu
    · rw [e, hT] at hn
      rw [e] at hne'
      simp only [pre_nil, List.mem_singleton] at hn
      rcases List.mem_cons.1 hw with e' | hw
      · exact absurd e'.symm hne'
      · rw [hF w hw, hn]
        exact r.not_mem ht hw
    · rw [hF u hu] at hn
      rcases List.mem_cons.1 hw with e' | hw
      · rw [e', hT]
        simp only [pre_nil, List.mem_singleton]
        intro e2
        rw [e2] at hn
        exact r.not_mem ht hu hn
      · rw [hF w hw]
        exact r.disj u hu w hw hne' n hn
  · intro u hu
    show (∀ n ∈ (upd A.F t Forest.nil u).pre, ∃ v, A.V n = some v) ∧ A.V u = none
    rcases List.mem_cons.1 hu with e | hu
    · rw [e, hT]; exact ⟨by simp, ht.1⟩
    · rw [hF u hu]; exact r.live u hu
  · intro u hu
    show upd s.size t 0 u = 0 ∨ upd s.size t 0 u = (upd A.F t Forest.nil u).card
    rcases List.mem_cons.1 hu with e | hu
    · rw [e]; simp
    · rw [hF u hu, upd_ne _ _ _ _ (hne u hu)]; exact r.size u hu
  · intro n v hv
    obtain ⟨u, hu, hm⟩ := r.leak n v hv
    exact ⟨u, by simp [hu], by show n ∈ (upd A.F t Forest.nil u).pre; rw [hF u hu]; exact hm⟩

theorem before_mem (t : Nat) (c : Ctx Nat) (g : Forest Nat) : (before t c).1 ∈ t :: (plug c g).pre := by
  rw [← full_mem (p := before t c), full_plug]
  exact List.mem_append_left _ (lastOf_mem _ _)

theorem at_mem (t : Nat) (c : Ctx Nat) (g : Forest Nat) : (at_ t c g).1 ∈ t :: (plug c g).pre := by
  rw [← full_mem (p := at_ t c g), full_plug]
  obtain ⟨B, e⟩ := rest_split t c g
  rw [e]; simp

theorem card_plug (c : Ctx Nat) (g : Forest Nat) : (plug c g).card = c.ids.length + g.card := by
  rw [card_eq, (pre_plug c g).length_eq, List.length_append, card_eq]

/-! ### insert -/

theorem new_frame {h : Heap α} {t n : Nat} {F : Forest Nat} {x : α} (v : Valid h t F) (hn : n ∉ t :: F.pre) : Valid (h.new n x) t F := by
  apply v.congr
  intro p hp
  have hpn : p.1 ≠ n := by rintro e; rw [e] at hp; exact hn hp
  have : p ≠ (n, true) := by rintro rfl; exact hpn rfl
  have : p ≠ (n, false) := by rintro rfl; exact hpn rfl
  constructor <;> simp [Heap.new, upd, *]

theorem insert_heap {s : St α} {t : Nat} {c : Ctx Nat} {R : Forest Nat} {n : Nat} {x : α}
    (v : Valid s.heap t (plug c R)) (hn : n ∉ t :: (plug c R).pre) :
    let h1 := (s.heap.new n x).setNext (before t c) (n, true)
    (s.insert t (at_ t c R) x n).1.heap = h1.setNext (n, false) (at_ t c R) ∧
      Valid (h1.setNext (n, false) (at_ t c R)) t (plug c (.cons n .nil R)) := by
  have v1 : Valid (s.heap.new n x) t (plug c R) := new_frame v hn
  have hb : (before t c) ≠ (n, true) := by
    intro e
    have := before_mem t c R
    rw [e] at this; exact hn this
  have hseg : Seg (s.heap.new n x) (Forest.cons n Forest.nil Forest.nil).word := by
    refine ⟨⟨?_, ?_⟩, trivial⟩ <;> simp [Heap.new, upd]
  have nd : (t :: (plug c (append (.cons n .nil .nil) R)).pre).Nodup := by
    have := v.nd
    rw [plug_nodup] at this ⊢
    have hp : (t :: (c.ids ++ (append (.cons n .nil .nil) R).pre)).Perm (n :: (t :: (c.ids ++ R.pre))) := by
      simp only [append, pre_cons, pre_nil, List.nil_append]
      refine ((List.perm_middle (l₁ := c.ids)).cons t).trans (List.Perm.swap _ _ _)
    rw [hp.nodup_iff, List.nodup_cons]
    refine ⟨?_, this⟩
    rw [← ((pre_plug c R).cons t).mem_iff]; exact hn
  have p := v1.paste hseg (SB := [(n, false)]) (SA := [(n, true)]) rfl rfl nd
  refine ⟨?_, p⟩
  have hd : (s.heap.new n x).dec (at_ t c R) = before t c := (v1.around).1
  have hi : ((s.heap.new n x).setNext (before t c) (n, true)).inc (n, true) = (n, false) := by
    have hx : ((s.heap.new n x).setNext (before t c) (n, true)).nxt (n, true) = n := by
      simp only [Heap.setNext]
      rw [upd_ne _ _ _ _ (Ne.symm hb)]
      simp [Heap.new, upd]
    simp only [Heap.inc, hx]; simp
  simp only [St.insert, hd, hi]

theorem Rep.insert {s : St α} {A : AS α} (r : Rep s A) {t : Nat} (ht : t ∈ A.tails) {c : Ctx Nat} {R : Forest Nat}
    (hF : A.F t = plug c R) {n : Nat} (hn : Fresh A n) (x : α) :
    Rep (s.insert t (at_ t c R) x n).1 { A with F := upd A.F t (plug c (.cons n .nil R)), V := upd A.V n (some x) } ∧
      (s.insert t (at_ t c R) x n).2 = (n, true) := by
  refine ⟨?_, rfl⟩
  have v := r.valid t ht
  have hnt := r.not_mem hn ht
  have hcard := card_plug c R
  have hcard' := card_plug c (.cons n .nil R)
  have hz := r.size t ht
  rw [hF] at v hnt hz
  obtain ⟨eh, v'⟩ := insert_heap (x := x) v hnt
  have hmem : ∀ m, m ∈ t :: (plug c (.cons n .nil R)).pre ↔ m = n ∨ m ∈ t :: (plug c R).pre := by
    intro m
    rw [mem_plug, mem_plug]; simp; tauto
  refine ⟨?_, ?_, ?_, ?_, ?_, ?_⟩
  · intro u hu
    simp only
    by_cases hut : u = t
    · subst hut
      rw [upd_same, eh]; exact v'
    · rw [upd_ne _ _ _ _ hut, eh]
      have hnu := r.not_mem hn hu
      have v1 : Valid (s.heap.new n x) u (A.F u) := new_frame (r.valid u hu) hnu
      have hdis : ∀ m ∈ t :: (plug c R).pre, m ∉ u :: (A.F u).pre := by
        have := r.disj t ht u hu (Ne.symm hut)
        rw [hF] at this; exact this
      exact (v1.frame _ _ (hdis _ (before_mem t c R)) hnu).frame _ _ hnu (hdis _ (at_mem t c R))
  · intro u hu w hw hne m hm
    simp only at hm ⊢
    by_cases hut : u = t
    · subst hut
      rw [upd_same, hmem] at hm
      rw [upd_ne _ _ _ _ (Ne.symm hne)]
      rcases hm with rfl | hm
      · exact r.not_mem hn hw
      · exact r.disj u hu w hw hne m (by rw [hF]; exact hm)
    · rw [upd_ne _ _ _ _ hut] at hm
      by_cases hwt : w = t
      · subst hwt
        rw [upd_same, hmem, not_or]
        refine ⟨?_, ?_⟩
        · rintro rfl; exact r.not_mem hn hu hm
        · rw [← hF]; exact r.disj u hu w hw hne m hm
      · rw [upd_ne _ _ _ _ hwt]; exact r.disj u hu w hw hne m hm
  · rw [eh]
    show upd s.heap.val n (some x) = _
    rw [r.vals]
  · intro u hu
    have hun : u ≠ n := by rintro rfl; exact hn.2 hu
    simp only
    refine ⟨?_, by rw [upd_ne _ _ _ _ hun]; exact (r.live u hu).2⟩
    intro m hm
    by_cases hmn : m = n
    · subst hmn; exact ⟨x, upd_same _ _ _⟩
    · rw [upd_ne _ _ _ _ hmn]
      by_cases hut : u = t
      · subst hut
        rw [upd_same] at hm
        have := (hmem m).1 (by simp [hm])
        rcases this with rfl | h
        · exact absurd rfl hmn
        · rcases List.mem_cons.1 h with rfl | h
          · have hn2 := v'.nd
            rw [List.nodup_cons] at hn2
            exact absurd hm hn2.1
          · exact (r.live u hu).1 m (by rw [hF]; exact h)
      · rw [upd_ne _ _ _ _ hut] at hm
        exact (r.live u hu).1 m hm
  · intro u hu
    have e : (s.insert t (at_ t c R) x n).1.size = if s.sizeValid t then upd s.size t (s.size t + 1) else s.size := rfl
    simp only [e]
    by_cases hut : u = t
    · subst hut
      rw [upd_same]
      by_cases hv : s.sizeValid u = true
      · rw [if_pos hv, upd_same, sizeValid_card v hz hv]
        right; rw [hcard, hcard']; simp [card]; omega
      · rw [if_neg hv]
        left; exact (sizeInvalid v hv).1
    · rw [upd_ne _ _ _ _ hut]
      have : (if s.sizeValid t = true then upd s.size t (s.size t + 1) else s.size) u = s.size u := by
        split
        · exact upd_ne _ _ _ _ hut
        · rfl
      rw [this]; exact r.size u hu
  · intro m y hm
    simp only at hm ⊢
    by_cases hmn : m = n
    · subst hmn
      refine ⟨t, ht, ?_⟩
      rw [upd_same, (pre_plug c _).mem_iff]; simp
    · rw [upd_ne _ _ _ _ hmn] at hm
      obtain ⟨u, hu, hmu⟩ := r.leak m y hm
      refine ⟨u, hu, ?_⟩
      by_cases hut : u = t
      · subst hut
        rw [upd_same, (pre_plug c _).mem_iff]
        rw [hF, (pre_plug c _).mem_iff] at hmu
        simp at hmu ⊢; tauto
      · rw [upd_ne _ _ _ _ hut]; exact hmu

/-! ### erase -/

theorem erase_heap_eq (h : Heap α) (b r k1 k2 : Pos) :
    ((h.setNext b r).setNext b k1).setNext k2 r = (h.setNext b k1).setNext k2 r := by
  simp only [Heap.setNext, Heap.mk.injEq, and_true]
  constructor
  · funext p; simp only [upd]; split <;> (try rfl) <;> split <;> rfl
  · funext p; simp only [upd]; split <;> (try rfl) <;> split <;> rfl

theorem Valid.node {h : Heap α} {t : Nat} {c : Ctx Nat} {n : Nat} {k R : Forest Nat} (v : Valid h t (plug c (.cons n k R))) :
    h.dec (n, true) = before t c ∧ h.inc (n, true) = firstOf k.word (n, false) ∧
      h.dec (n, false) = lastOf (n, true) k.word ∧ h.inc (n, false) = at_ t c R := by
  have h1 := v.around
  have e0 : at_ t c (.cons n k R) = (n, true) := by simp [at_]
  rw [e0] at h1
  obtain ⟨B, eB⟩ := rest_split t c R
  have ef : full t (plug c (.cons n k R)) = ((t, true) :: c.lw) ++ ((n, true) :: (k.word ++ (n, false) :: (at_ t c R :: B))) := by
    rw [full_plug, word_cons, ← eB]; simp
  refine ⟨h1.1, ?_, ?_, ?_⟩
  · obtain ⟨Q, eQ⟩ := split_first k.word (n, false)
    exact (v.step (A := (t, true) :: c.lw) (B := Q ++ (at_ t c R :: B)) (p := (n, true)) (q := firstOf k.word (n, false)) (by
      rw [ef, show k.word ++ (n, false) :: (at_ t c R :: B) = (k.word ++ [(n, false)]) ++ (at_ t c R :: B) by simp, eQ]; simp)).1
  · obtain ⟨P, eP⟩ := split_last (n, true) k.word
    exact (v.step (A := (t, true) :: c.lw ++ P) (B := at_ t c R :: B) (p := lastOf (n, true) k.word) (q := (n, false)) (by
      rw [ef, show (n, true) :: (k.word ++ (n, false) :: (at_ t c R :: B)) = ((n, true) :: k.word) ++ (n, false) :: (at_ t c R :: B) by simp, eP]; simp)).2
  · exact (v.step (A := (t, true) :: c.lw ++ (n, true) :: k.word) (B := B) (p := (n, false)) (q := at_ t c R) (by rw [ef]; simp)).1

theorem Valid.hasChildren {h : Heap α} {t : Nat} {c : Ctx Nat} {n : Nat} {k R : Forest Nat} (v : Valid h t (plug c (.cons n k R)))
    (e : Bool) : h.hasChildren (n, e) = decide (k ≠ .nil) := by
  unfold Heap.hasChildren leadingOf
  rw [v.node.2.1]
  cases k with
  | nil => simp
  | cons m k' r' =>
    have hne : m ≠ n := by
      rintro rfl
      have := v.nd
      rw [plug_nodup, List.nodup_cons, List.nodup_append] at this
      have h2 := this.2.2.1
      simp at h2
    simp [hne]

theorem Rep.erase (junk : Pos → Nat) {s : St α} {A : AS α} (r : Rep s A) {t : Nat} (ht : t ∈ A.tails) {c : Ctx Nat} {n : Nat} {k R : Forest Nat}
    (hF : A.F t = plug c (.cons n k R)) (e : Bool) :
    ∃ s', s.erase junk t (n, e) = some (s', if e then at_ t c (append k R) else at_ t c R) ∧
      Rep s' { A with F := upd A.F t (plug c (append k R)), V := upd A.V n none } := by
  have v := r.valid t ht
  have hz := r.size t ht
  rw [hF] at v hz
  obtain ⟨n1, n2, n3, n4⟩ := v.node
  have nd := v.nd
  have hcard := card_plug c (.cons n k R)
  have hcard' := card_plug c (append k R)
  have cut := Valid.cut (S := .cons n k .nil) (R := R) (show Valid s.heap t (plug c (append (.cons n k .nil) R)) from v)
  obtain ⟨cv, cs⟩ := cut
  have nd' : (t :: (plug c (append k R)).pre).Nodup := by
    rw [plug_nodup] at nd ⊢
    refine nd.sublist (List.Sublist.cons_cons _ (List.Sublist.append_left ?_ _))
    rw [pre_append, pre_cons]; exact List.sublist_cons_self _ _
  have hnn : n ∉ t :: (plug c (append k R)).pre := by
    rw [plug_nodup, pre_cons] at nd
    rw [mem_plug, pre_append]
    have hp : (t :: (c.ids ++ n :: (k.pre ++ R.pre))).Perm (n :: (t :: (c.ids ++ (k.pre ++ R.pre)))) :=
      ((List.perm_middle (l₁ := c.ids)).cons t).trans (List.Perm.swap _ _ _)
    rw [hp.nodup_iff, List.nodup_cons] at nd
    simpa using nd.1
  -- the heap before deletion
  obtain ⟨h1, eh1, v1⟩ : ∃ h1, (if s.heap.hasChildren (n, e) = true then
        (s.heap.setNext (before t c) (firstOf k.word (n, false))).setNext (lastOf (n, true) k.word) (at_ t c R)
      else s.heap.setNext (before t c) (at_ t c R)) = h1 ∧ Valid h1 t (plug c (append k R)) := by
    refine ⟨_, rfl, ?_⟩
    rw [v.hasChildren]
    by_cases hk : k = .nil
    · subst hk; simpa [append] using cv
    · have hd : decide (k ≠ .nil) = true := by simpa using hk
      rw [hd, if_pos rfl]
      obtain ⟨k1, k2, ⟨SB, e1⟩, ⟨SA, e2⟩, _⟩ := word_ends hk
      have cs' : Seg (s.heap.setNext (before t c) (at_ t c R)) k.word := by
        have h1 := cs
        rw [word_cons] at h1
        exact seg_left _ _ (seg_right [(n, true)] _ h1)
      have := cv.paste cs' e1 e2 nd'
      rw [erase_heap_eq] at this
      have f1 : firstOf k.word (n, false) = (k1, true) := by rw [e1]; rfl
      have f2 : lastOf (n, true) k.word = (k2, false) := by rw [e2]; simp
      rw [f1, f2]; exact this
  have hval1 : h1.val = s.heap.val := by rw [← eh1]; split <;> rfl
  obtain ⟨y, hy⟩ := (r.live t ht).1 n (by rw [hF, (pre_plug c _).mem_iff]; simp)
  have hy1 : h1.val n = some y := by rw [hval1, r.vals, hy]
  have hdel : h1.delete junk n = some { nxt := fun p => if p.1 = n then junk p else h1.nxt p, prv := fun p => if p.1 = n then junk p else h1.prv p, val := upd h1.val n none } := by
    simp only [Heap.delete, hy1]
  set h2 : Heap α := { nxt := fun p => if p.1 = n then junk p else h1.nxt p, prv := fun p => if p.1 = n then junk p else h1.prv p, val := upd h1.val n none } with hh2
  have delframe : ∀ u G, Valid h1 u G → n ∉ u :: G.pre → Valid h2 u G := by
    intro u G vu hu
    apply vu.congr
    intro p hp
    have : p.1 ≠ n := by rintro rfl; exact hu hp
    simp [hh2, this]
  have v2 := delframe _ _ v1 hnn
  have hres : s.erase junk t (n, e) = some (⟨h2, if s.sizeValid t then upd s.size t (s.size t - 1) else s.size⟩, if e then at_ t c (append k R) else at_ t c R) := by
    unfold St.erase
    simp only [leadingOf, trailingOf, n1, n2, n3, n4, eh1, hdel]
    rw [v2.around.2]
  refine ⟨_, hres, ?_, ?_, ?_, ?_, ?_, ?_⟩
  · intro u hu
    simp only
    by_cases hut : u = t
    · subst hut; rw [upd_same]; exact v2
    · rw [upd_ne _ _ _ _ hut]
      have hdis : ∀ m ∈ t :: (plug c (.cons n k R)).pre, m ∉ u :: (A.F u).pre := by
        have := r.disj t ht u hu (Ne.symm hut)
        rw [hF] at this; exact this
      have hn' : n ∉ u :: (A.F u).pre := hdis n (by rw [mem_plug]; simp)
      apply delframe
      · rw [← eh1]
        have hk : ∀ p : Pos, p ∈ (n, true) :: (k.word ++ [(n, false)]) → p.1 ∉ u :: (A.F u).pre := by
          intro p hp
          apply hdis
          rw [mem_plug, pre_cons]
          simp only [List.mem_cons, List.mem_append, mem_word, List.not_mem_nil, or_false] at hp ⊢
          rcases hp with rfl | hp | rfl
          · simp
          · tauto
          · simp
        have hb := hdis _ (before_mem t c (.cons n k R))
        have ha : (at_ t c R).1 ∉ u :: (A.F u).pre := by
          apply hdis
          have := at_mem t c R
          rw [mem_plug] at this ⊢
          simp; tauto
        split
        · refine ((r.valid u hu).frame _ _ hb (hk _ ?_)).frame _ _ (hk _ ?_) ha
          · have := firstOf_mem k.word ((n, false) : Pos); simp at this ⊢; tauto
          · have := lastOf_mem ((n, true) : Pos) k.word; simp at this ⊢; tauto
        · exact (r.valid u hu).frame _ _ hb ha
      · exact hn'
  · intro u hu w hw hne m hm
    simp only at hm ⊢
    have sub : ∀ m, m ∈ t :: (plug c (append k R)).pre → m ∈ t :: (plug c (.cons n k R)).pre := by
      intro m; rw [mem_plug, mem_plug]; simp; tauto
    by_cases hut : u = t
    · subst hut
      rw [upd_same] at hm
      rw [upd_ne _ _ _ _ (Ne.symm hne)]
      exact r.disj u hu w hw hne m (by rw [hF]; exact sub m hm)
    · rw [upd_ne _ _ _ _ hut] at hm
      by_cases hwt : w = t
      · subst hwt
        rw [upd_same]
        intro hh
        refine r.disj u hu w hw hne m hm ?_
        rw [hF]; exact sub m hh
      · rw [upd_ne _ _ _ _ hwt]; exact r.disj u hu w hw hne m hm
  · show upd h1.val n none = _
    rw [hval1, r.vals]
  · intro u hu
    simp only
    have hother : ∀ m, m ∈ (upd A.F t (plug c (append k R)) u).pre → m ≠ n ∧ m ∈ (A.F u).pre := by
      intro m hm
      by_cases hut : u = t
      · subst hut
        rw [upd_same] at hm
        refine ⟨?_, ?_⟩
        · rintro rfl; exact hnn (by simp [hm])
        · rw [hF]
          rw [(pre_plug c _).mem_iff] at hm ⊢
          simp at hm ⊢; tauto
      · rw [upd_ne _ _ _ _ hut] at hm
        refine ⟨?_, hm⟩
        rintro rfl
        exact r.disj u hu t ht hut m (by simp [hm]) (by rw [hF, mem_plug]; simp)
    refine ⟨?_, ?_⟩
    · intro m hm
      obtain ⟨h1, h2⟩ := hother m hm
      rw [upd_ne _ _ _ _ h1]; exact (r.live u hu).1 m h2
    · by_cases hun : u = n
      · rw [hun]; exact upd_same _ _ _
      · rw [upd_ne _ _ _ _ hun]; exact (r.live u hu).2
  · intro u hu
    simp only
    by_cases hut : u = t
    · subst hut
      rw [upd_same]
      by_cases hv : s.sizeValid u = true
      · rw [if_pos hv, upd_same, sizeValid_card v hz hv]
        right; rw [hcard, hcard', card_eq (append k R)]; simp [card, card_eq]; omega
      · rw [if_neg hv]
        left; exact (sizeInvalid v hv).1
    · rw [upd_ne _ _ _ _ hut]
      have : (if s.sizeValid t = true then upd s.size t (s.size t - 1) else s.size) u = s.size u := by
        split
        · exact upd_ne _ _ _ _ hut
        · rfl
      rw [this]; exact r.size u hu
  · intro m y' hm
    simp only at hm ⊢
    by_cases hmn : m = n
    · subst hmn; rw [upd_same] at hm; cases hm
    · rw [upd_ne _ _ _ _ hmn] at hm
      obtain ⟨u, hu, hmu⟩ := r.leak m y' hm
      refine ⟨u, hu, ?_⟩
      by_cases hut : u = t
      · subst hut
        rw [upd_same, (pre_plug c _).mem_iff]
        rw [hF, (pre_plug c _).mem_iff] at hmu
        simp at hmu ⊢; tauto
      · rw [upd_ne _ _ _ _ hut]; exact hmu

end Verif.Forest

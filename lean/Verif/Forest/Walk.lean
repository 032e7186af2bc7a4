import Verif.Forest.Copy

namespace Verif.Forest
open Verif.Ring Forest

variable {α : Type}

/-- consecutive positions of the list are reached by `++` -/
def Run (h : Heap α) : List Pos → Prop
  | p :: q :: l => h.inc p = q ∧ Run h (q :: l)
  | _ => True

theorem run_of_nav {h : Heap α} {l : List Pos} (hn : Nav h l) : Run h l := by
  induction l with
  | nil => trivial
  | cons p l ih =>
    cases l with
    | nil => trivial
    | cons q l => exact ⟨hn.1.1, ih hn.2⟩

theorem run_tail {h : Heap α} {p : Pos} {l : List Pos} (hr : Run h (p :: l)) : Run h l := by
  cases l with
  | nil => trivial
  | cons q l => exact hr.2

theorem run_head {h : Heap α} {p z : Pos} {M : List Pos} (hr : Run h (p :: (M ++ [z]))) : h.inc p = firstOf M z := by
  cases M with
  | nil => exact hr.1
  | cons q M => exact hr.1

theorem run_head' {h : Heap α} {p z : Pos} {M Y : List Pos} (hr : Run h (p :: (M ++ z :: Y))) : h.inc p = firstOf M z := by
  cases M with
  | nil => exact hr.1
  | cons q M => exact hr.1

theorem run_right {h : Heap α} (M : List Pos) {l : List Pos} (hr : Run h (M ++ l)) : Run h l := by
  induction M with
  | nil => exact hr
  | cons p M ih => exact ih (run_tail hr)

theorem Valid.run {h : Heap α} {t : Nat} {F : Forest Nat} (v : Valid h t F) : Run h (full t F) := run_of_nav v.nav

theorem run_snoc {h : Heap α} {M : List Pos} {p q : Pos} (hr : Run h (M ++ [p])) (hq : h.inc p = q) : Run h (M ++ [p, q]) := by
  induction M with
  | nil => exact ⟨hq, trivial⟩
  | cons a M ih =>
    cases M with
    | nil => exact ⟨hr.1, ih hr.2⟩
    | cons b M => exact ⟨hr.1, ih hr.2⟩

/-! ### plain walks -/

theorem walk_eq {h : Heap α} {z : Pos} : ∀ (M : List Pos) (fuel : Nat), Run h (M ++ [z]) → z ∉ M → M.length ≤ fuel →
    h.walk z fuel (firstOf M z) = some M := by
  intro M
  induction M with
  | nil => intro fuel _ _ _; cases fuel <;> simp [Heap.walk, firstOf]
  | cons p M ih =>
    intro fuel hr hz hf
    obtain ⟨fuel, rfl⟩ : ∃ f, fuel = f + 1 := ⟨fuel - 1, by simp at hf; omega⟩
    have hpz : p ≠ z := by rintro rfl; simp at hz
    rw [firstOf_cons, Heap.walk, if_neg hpz, run_head hr, ih fuel (run_tail hr) (by intro h; exact hz (by simp [h])) (by simpa using hf)]
    rfl

/-- consecutive positions of the list are reached by `--` -/
def RunB (h : Heap α) : List Pos → Prop
  | p :: q :: l => h.dec p = q ∧ RunB h (q :: l)
  | _ => True

theorem runB_snoc {h : Heap α} {M : List Pos} {p q : Pos} (hr : RunB h (M ++ [p])) (hq : h.dec p = q) : RunB h (M ++ [p, q]) := by
  induction M with
  | nil => exact ⟨hq, trivial⟩
  | cons a M ih =>
    cases M with
    | nil => exact ⟨hr.1, ih hr.2⟩
    | cons b M => exact ⟨hr.1, ih hr.2⟩

theorem runB_of_nav {h : Heap α} {l : List Pos} (hn : Nav h l) : RunB h l.reverse := by
  induction l with
  | nil => trivial
  | cons p l ih =>
    cases l with
    | nil => trivial
    | cons q l =>
      have := ih hn.2
      rw [List.reverse_cons] at this ⊢
      rw [List.reverse_cons, List.append_assoc]
      exact runB_snoc this hn.1.2

theorem runB_tail {h : Heap α} {p : Pos} {l : List Pos} (hr : RunB h (p :: l)) : RunB h l := by
  cases l with
  | nil => trivial
  | cons q l => exact hr.2

theorem runB_head {h : Heap α} {p z : Pos} {M : List Pos} (hr : RunB h (p :: (M ++ [z]))) : h.dec p = firstOf M z := by
  cases M with
  | nil => exact hr.1
  | cons q M => exact hr.1

theorem walkBack_eq {h : Heap α} {z : Pos} : ∀ (M : List Pos) (fuel : Nat), RunB h (M ++ [z]) → z ∉ M → M.length ≤ fuel →
    h.walkBack z fuel (firstOf M z) = some M := by
  intro M
  induction M with
  | nil => intro fuel _ _ _; cases fuel <;> simp [Heap.walkBack, firstOf]
  | cons p M ih =>
    intro fuel hr hz hf
    obtain ⟨fuel, rfl⟩ : ∃ f, fuel = f + 1 := ⟨fuel - 1, by simp at hf; omega⟩
    have hpz : p ≠ z := by rintro rfl; simp at hz
    rw [firstOf_cons, Heap.walkBack, if_neg hpz, runB_head hr, ih fuel (runB_tail hr) (by intro h; exact hz (by simp [h])) (by simpa using hf)]
    rfl

/-! ### preorder, postorder -/

theorem findEdge_eq {h : Heap α} {z : Pos} (e : Bool) (hz : z.2 = e) : ∀ (M : List Pos) (fuel : Nat), Run h (M ++ [z]) → M.length ≤ fuel →
    h.findEdge e fuel (firstOf M z) = some (firstOf (M.filter (fun p => p.2 == e)) z) := by
  intro M
  induction M with
  | nil => intro fuel _ _; cases fuel <;> simp [Heap.findEdge, firstOf, hz]
  | cons p M ih =>
    intro fuel hr hf
    obtain ⟨fuel, rfl⟩ : ∃ f, fuel = f + 1 := ⟨fuel - 1, by simp at hf; omega⟩
    rw [firstOf_cons, Heap.findEdge]
    by_cases hp : p.2 = e
    · rw [if_pos hp, List.filter_cons_of_pos (by simpa using hp), firstOf_cons]
    · rw [if_neg hp, List.filter_cons_of_neg (by simpa using hp), run_head hr]
      exact ih fuel (run_tail hr) (by simpa using hf)

theorem edgeWalk_eq {h : Heap α} {z : Pos} (e : Bool) (hz : z.2 = e) (fuel : Nat) : ∀ (M : List Pos) (m : Nat), Run h (M ++ [z]) → z ∉ M →
    M.length ≤ fuel → M.length ≤ m →
    h.edgeWalk e fuel z m (firstOf (M.filter (fun p => p.2 == e)) z) = some (M.filter (fun p => p.2 == e)) := by
  intro M
  induction M with
  | nil => intro m _ _ _ _; cases m <;> simp [Heap.edgeWalk, firstOf]
  | cons p M ih =>
    intro m hr hzM hf hm
    obtain ⟨m, rfl⟩ : ∃ f, m = f + 1 := ⟨m - 1, by simp at hm; omega⟩
    simp only [List.length_cons] at hf hm
    by_cases hp : p.2 = e
    · rw [List.filter_cons_of_pos (by simpa using hp), firstOf_cons, Heap.edgeWalk]
      have hpz : p ≠ z := by rintro rfl; simp at hzM
      rw [if_neg hpz, Heap.edgeInc, run_head hr, findEdge_eq e hz M fuel (run_tail hr) (by omega)]
      simp only
      rw [ih m (run_tail hr) (by intro h; exact hzM (by simp [h])) (by omega) (by omega)]; rfl
    · rw [List.filter_cons_of_neg (by simpa using hp)]
      exact ih (m + 1) (run_tail hr) (by intro h; exact hzM (by simp [h])) (by omega) (by omega)

theorem filter_lead {β : Type} (F : Forest β) : F.word.filter (fun p => p.2 == true) = F.pre.map (fun n => (n, true)) := by
  induction F with
  | nil => rfl
  | cons n k r ihk ihr =>
    rw [word_cons, List.filter_cons_of_pos (by simp), List.filter_append, ihk, List.filter_cons_of_neg (by simp), ihr, pre_cons]
    simp

theorem filter_trail {β : Type} (F : Forest β) : F.word.filter (fun p => p.2 == false) = F.post.map (fun n => (n, false)) := by
  induction F with
  | nil => rfl
  | cons n k r ihk ihr =>
    rw [word_cons, List.filter_cons_of_neg (by simp), List.filter_append, ihk, List.filter_cons_of_pos (by simp), ihr]
    simp [post]

theorem preorder_eq {h : Heap α} {t : Nat} {F : Forest Nat} (v : Valid h t F) {fuel : Nat} (hf : 2 * F.card + 1 ≤ fuel) :
    h.edgeRange true fuel t = some (F.pre.map (fun n => (n, true))) := by
  have hr : Run h ((F.word ++ [(t, false)]) ++ [(t, true)]) := by
    have h1 := run_tail v.run
    have := run_snoc h1 v.wrap.1
    simpa using this
  have hr2 : Run h ([(t, false)] ++ [(t, true)]) := by
    have := hr
    rw [List.append_assoc] at this
    exact run_right F.word this
  have hlen : (F.word ++ [(t, false)]).length ≤ fuel := by simp [word_length]; omega
  have hz : (t, true) ∉ F.word ++ [((t, false) : Pos)] := by
    simp [mem_word]; exact (List.nodup_cons.1 v.nd).1
  have e1 : h.begin t = firstOf (F.word ++ [(t, false)]) (t, true) := by
    rw [begin_eq v, at_]; simp only [Ctx.rw, List.append_nil]
    cases F.word <;> rfl
  have f1 := findEdge_eq true rfl _ fuel hr hlen
  have f2 := findEdge_eq true rfl [(t, false)] fuel hr2 (by simp; omega)
  simp only [firstOf_cons] at f2
  have f2 : h.findEdge true fuel (end_ t) = some (t, true) := f2
  unfold Heap.edgeRange
  rw [e1, f1, f2]
  simp only
  rw [edgeWalk_eq true rfl fuel _ _ hr hz hlen hlen, List.filter_append, filter_lead]
  simp

theorem postorder_eq {h : Heap α} {t : Nat} {F : Forest Nat} (v : Valid h t F) {fuel : Nat} (hf : 2 * F.card ≤ fuel) :
    h.edgeRange false fuel t = some (F.post.map (fun n => (n, false))) := by
  have hr : Run h (F.word ++ [(t, false)]) := run_tail v.run
  have hlen : F.word.length ≤ fuel := by rw [word_length]; exact hf
  have hz : (t, false) ∉ F.word := by
    simp only [mem_word]; exact (List.nodup_cons.1 v.nd).1
  have e1 : h.begin t = firstOf F.word (t, false) := by
    rw [begin_eq v, at_]; simp [Ctx.rw]
  have f1 := findEdge_eq false rfl _ fuel hr hlen
  have f2 : h.findEdge false fuel (end_ t) = some (t, false) := by cases fuel <;> rfl
  unfold Heap.edgeRange
  rw [e1, f1, f2]
  simp only
  rw [edgeWalk_eq false rfl fuel _ _ hr hz hlen hlen, filter_trail]

theorem Rep.getSize {s : St α} {A : AS α} (r : Rep s A) {t : Nat} (ht : t ∈ A.tails) {fuel : Nat} (hf : 2 * (A.F t).card + 1 ≤ fuel) :
    ∃ s', s.getSize fuel t = some (s', (A.F t).card) ∧ Rep s' A ∧ s'.heap = s.heap := by
  unfold St.getSize
  by_cases hv : s.sizeValid t = true
  · rw [if_pos hv, sizeValid_card (r.valid t ht) (r.size t ht) hv]
    exact ⟨s, rfl, r, rfl⟩
  · rw [if_neg hv, preorder_eq (r.valid t ht) hf]
    simp only [List.length_map, ← card_eq]
    refine ⟨_, rfl, ⟨r.valid, r.disj, r.vals, r.live, ?_, r.leak⟩, rfl⟩
    intro u hu
    simp only
    by_cases hut : u = t
    · rw [hut, upd_same]; right; rfl
    · rw [upd_ne _ _ _ _ hut]; exact r.size u hu

/-! ### children, parents, depth -/

theorem childWalk_eq {h : Heap α} {q : Pos} (S : Forest Nat) : ∀ (Y : List Pos) (fuel : Nat), Run h (S.word ++ q :: Y) → q ∉ S.word → S.card ≤ fuel →
    h.childWalk q fuel (firstOf S.word q) = some (S.roots.map (fun n => (n, true))) := by
  induction S with
  | nil => intro Y fuel _ _ _; cases fuel <;> simp [Heap.childWalk, firstOf, roots]
  | cons n k r _ ih =>
    intro Y fuel hr hq hf
    simp only [card] at hf
    obtain ⟨fuel, rfl⟩ : ∃ f, fuel = f + 1 := ⟨fuel - 1, by omega⟩
    rw [word_cons] at hr hq ⊢
    have hne : (n, true) ≠ q := by rintro rfl; simp at hq
    have hr' : Run h ((n, false) :: (r.word ++ q :: Y)) := by
      refine run_right ((n, true) :: k.word) ?_
      simpa using hr
    have hstep : h.childInc (n, true) = firstOf r.word q := by
      simp only [Heap.childInc, pivot, Bool.not_true]
      exact run_head' hr'
    rw [firstOf_cons, Heap.childWalk, if_neg hne, hstep, ih Y fuel (run_tail hr') (by intro h; exact hq (by simp [h])) (by omega)]
    rfl

theorem childRange_eq {h : Heap α} {t : Nat} {c : Ctx Nat} {n : Nat} {k R : Forest Nat} (v : Valid h t (plug c (.cons n k R))) (e : Bool)
    {fuel : Nat} (hf : k.card ≤ fuel) : h.childRange fuel (n, e) = some (k.roots.map (fun n => (n, true))) := by
  unfold Heap.childRange leadingOf trailingOf
  rw [v.node.2.1]
  have hr := v.run
  have e1 : full t (plug c (.cons n k R)) = ((t, true) :: c.lw ++ [(n, true)]) ++ (k.word ++ (n, false) :: (R.word ++ (c.rw ++ [(t, false)]))) := by
    rw [full_plug]; simp
  rw [e1] at hr
  refine childWalk_eq k _ fuel (run_right _ hr) ?_ hf
  have nd := v.nd
  rw [plug_nodup, pre_cons, List.nodup_cons] at nd
  have h2 := (List.nodup_append.1 nd.2).2.1
  rw [List.nodup_cons] at h2
  rw [mem_word]
  intro hh; exact h2.1 (by simp [hh])

theorem childRange_root {h : Heap α} {t : Nat} {F : Forest Nat} (v : Valid h t F) (e : Bool) {fuel : Nat} (hf : F.card ≤ fuel) :
    h.childRange fuel (t, e) = some (F.roots.map (fun n => (n, true))) := by
  unfold Heap.childRange leadingOf trailingOf
  have hr := v.run
  have h0 : h.inc (t, true) = firstOf F.word (t, false) := run_head hr
  rw [h0]
  refine childWalk_eq F [] fuel (run_tail hr) ?_ hf
  rw [mem_word]; exact (List.nodup_cons.1 v.nd).1

theorem rw_first (c : Ctx Nat) (t : Nat) : firstOf c.rw (t, false) = (c.parent t, false) := by
  induction c generalizing t with
  | top => rfl
  | after n k c ih => exact ih t
  | inside n c r ih =>
    simp only [Ctx.rw, Ctx.parent]
    rw [← ih n]
    cases c.rw <;> rfl

theorem findParent_eq {h : Heap α} {t : Nat} (R : Forest Nat) : ∀ (c : Ctx Nat) (n : Nat) (k : Forest Nat) (e : Bool) (fuel : Nat),
    Valid h t (plug c (.cons n k R)) → R.card + 1 ≤ fuel → h.findParent fuel (n, e) = some (c.parent t, false) := by
  induction R with
  | nil =>
    intro c n k e fuel v hf
    obtain ⟨fuel, rfl⟩ : ∃ f, fuel = f + 1 := ⟨fuel - 1, by omega⟩
    have : h.inc (n, false) = (c.parent t, false) := by
      rw [v.node.2.2.2, at_, word_nil, List.nil_append, rw_first]
    simp [Heap.findParent, trailingOf, this]
  | cons m k' R _ ih =>
    intro c n k e fuel v hf
    simp only [card] at hf
    obtain ⟨fuel, rfl⟩ : ∃ f, fuel = f + 1 := ⟨fuel - 1, by omega⟩
    have h0 : h.inc (n, false) = (m, true) := by
      rw [v.node.2.2.2]; simp [at_]
    rw [Heap.findParent]
    simp only [trailingOf, h0, ne_eq, Bool.true_eq_false, not_false_eq_true, if_true]
    have e1 : plug c (.cons n k (.cons m k' R)) = plug (c.comp (.after n k .top)) (.cons m k' R) := by rw [plug_comp]; rfl
    rw [e1] at v
    rw [ih _ m k' true fuel v (by omega)]
    have : ∀ (c : Ctx Nat) (t : Nat), (c.comp (.after n k .top)).parent t = c.parent t := by
      intro c
      induction c with
      | top => intro t; rfl
      | after a b c ih => intro t; exact ih t
      | inside a c b ih => intro t; exact ih a
    rw [this]

theorem depthWalk_eq {h : Heap α} {l : Pos} (S : Forest Nat) : ∀ (Y : List Pos) (q : Pos) (d : Int) (m : Nat), Run h (S.word ++ q :: Y) → l ∉ S.word →
    h.depthWalk l (m + 2 * S.card) (firstOf S.word q, if (firstOf S.word q).2 then d else d - 1) =
      (h.depthWalk l m (q, if q.2 then d else d - 1)).map (S.depths d ++ ·) := by
  induction S with
  | nil =>
    intro Y q d m _ _
    simp [firstOf, card, depths]
    rfl
  | cons n k r ihk ihr =>
    intro Y q d m hr hl
    rw [word_cons] at hr hl ⊢
    have hne1 : (n, true) ≠ l := by rintro rfl; simp at hl
    have hne2 : (n, false) ≠ l := by rintro rfl; simp at hl
    have hr1 : Run h ((n, true) :: (k.word ++ (n, false) :: (r.word ++ q :: Y))) := by simpa using hr
    have hr2 : Run h ((n, false) :: (r.word ++ q :: Y)) := run_right k.word (run_tail hr1)
    have hf : m + 2 * (Forest.cons n k r).card = ((m + 2 * r.card) + 1 + 2 * k.card) + 1 := by simp only [card]; omega
    rw [hf, firstOf_cons]
    simp only [if_true]
    rw [Heap.depthWalk]
    simp only [if_neg hne1]
    have s1 : h.depthInc ((n, true), d) = (firstOf k.word (n, false), if (firstOf k.word (n, false)).2 then d + 1 else d + 1 - 1) := by
      simp only [Heap.depthInc, run_head' hr1, if_true]
      cases (firstOf k.word (n, false)).2 <;> simp
    rw [s1, ihk (r.word ++ q :: Y) (n, false) (d + 1) _ (run_tail hr1) (by intro h; exact hl (by simp [h]))]
    simp only [Bool.false_eq_true, if_false, Int.add_sub_cancel]
    rw [Heap.depthWalk]
    simp only [if_neg hne2]
    have s2 : h.depthInc ((n, false), d) = (firstOf r.word q, if (firstOf r.word q).2 then d else d - 1) := by
      simp only [Heap.depthInc, run_head' hr2]
      cases (firstOf r.word q).2 <;> simp <;> omega
    rw [s2, ihr Y q d m (run_tail hr2) (by intro h; exact hl (by simp [h]))]
    simp only [Option.map_map, depths]
    congr 1
    funext L
    simp

theorem depthRange_eq {h : Heap α} {t : Nat} {F : Forest Nat} (v : Valid h t F) {fuel : Nat} (hf : 2 * F.card ≤ fuel) :
    h.depthWalk (end_ t) fuel (h.begin t, 0) = some (F.depths 0) := by
  have hb : h.begin t = firstOf F.word (t, false) := by rw [begin_eq v, at_]; simp [Ctx.rw]
  have hr := run_tail v.run
  have hl : (t, false) ∉ F.word := by rw [mem_word]; exact (List.nodup_cons.1 v.nd).1
  cases F with
  | nil =>
    rw [hb]
    cases fuel <;> simp [firstOf, Heap.depthWalk, end_, depths]
  | cons n k r =>
    have := depthWalk_eq (l := (t, false)) (.cons n k r) [] (t, false) 0 (fuel - 2 * (Forest.cons n k r).card) hr hl
    rw [Nat.sub_add_cancel hf] at this
    rw [hb]
    have e : (firstOf (Forest.cons n k r).word (t, false)) = (n, true) := rfl
    rw [e] at this ⊢
    simp only [if_true] at this
    rw [end_, this]
    cases (fuel - 2 * (Forest.cons n k r).card) <;> simp [Heap.depthWalk]

/-! ### reversed traversal -/

theorem word_mirror {β : Type} (F : Forest β) : F.mirror.word = F.word.reverse.map (fun p => (p.1, !p.2)) := by
  induction F with
  | nil => rfl
  | cons n k r ihk ihr => simp [mirror, ihk, ihr]

def revOf (b : Pos) : RevIt := ⟨b, !b.2⟩

theorem revWalk_eq {h : Heap α} {z : Pos} : ∀ (M : List Pos) (fuel : Nat), RunB h (M ++ [z]) → z ∉ M → M.length ≤ fuel →
    h.revWalk (revOf z) fuel (revOf (firstOf M z)) = some (M.map (fun p => (p.1, !p.2))) := by
  intro M
  induction M with
  | nil => intro fuel _ _ _; cases fuel <;> simp [Heap.revWalk, firstOf]
  | cons p M ih =>
    intro fuel hr hz hf
    obtain ⟨fuel, rfl⟩ : ∃ f, fuel = f + 1 := ⟨fuel - 1, by simp at hf; omega⟩
    have hpz : revOf p ≠ revOf z := by
      intro h
      have : p = z := congrArg RevIt.base h
      rw [this] at hz; simp at hz
    have hstep : h.revInc (revOf p) = revOf (firstOf M z) := by
      have : ((revOf p).base.1, !(revOf p).edge) = p := by simp [revOf]
      simp only [Heap.revInc, this, runB_head hr]; rfl
    rw [firstOf_cons, Heap.revWalk, if_neg hpz, hstep, ih fuel (runB_tail hr) (by intro h; exact hz (by simp [h])) (by simpa using hf)]
    rfl

theorem reverseRange_eq {h : Heap α} {t : Nat} {F : Forest Nat} (v : Valid h t F) {fuel : Nat} (hf : 2 * F.card ≤ fuel) :
    h.revWalk (h.revMk (h.begin t)) fuel (h.revMk (end_ t)) = some F.mirror.word := by
  have hr : RunB h ((t, false) :: (F.word.reverse ++ [(t, true)])) := by
    have := runB_of_nav v.nav
    simpa [full] using this
  have h1 : h.dec (end_ t) = firstOf F.word.reverse (t, true) := runB_head hr
  have h2 : h.dec (h.begin t) = (t, true) := by
    have := (Valid.around (c := .top) (g := F) v).1
    rw [begin_eq v]; exact this
  have e1 : h.revMk (end_ t) = revOf (firstOf F.word.reverse (t, true)) := by rw [Heap.revMk, h1]; rfl
  have e2 : h.revMk (h.begin t) = revOf (t, true) := by rw [Heap.revMk, h2]; rfl
  rw [e1, e2, word_mirror]
  refine revWalk_eq _ fuel (runB_tail hr) ?_ (by rw [List.length_reverse, word_length]; exact hf)
  rw [List.mem_reverse, mem_word]; exact (List.nodup_cons.1 v.nd).1

/-! ### filtered traversal -/

/-- the predicate on nodes -/
def sat (V : Nat → Option α) (p : α → Bool) (n : Nat) : Bool := match V n with
  | some v => p v
  | none => false

theorem skipForward_eq {h : Heap α} {p : α → Bool} {l q : Pos} (hq : q.2 = false) (hl : l.2 = false) (S : Forest Nat) :
    ∀ (Y : List Pos) (fuel : Nat), Run h (S.word ++ q :: Y) → (∀ n ∈ S.pre, ∃ v, h.val n = some v) → S.card + 1 ≤ fuel →
    h.skipForward p l fuel (firstOf S.word q) = some (firstOf (S.prune (sat h.val p)).word q) := by
  induction S with
  | nil =>
    intro Y fuel _ _ hf
    obtain ⟨fuel, rfl⟩ : ∃ f, fuel = f + 1 := ⟨fuel - 1, by omega⟩
    simp [Heap.skipForward, firstOf, prune, hq]
  | cons n k r _ ih =>
    intro Y fuel hr hv hf
    simp only [card] at hf
    obtain ⟨fuel, rfl⟩ : ∃ f, fuel = f + 1 := ⟨fuel - 1, by omega⟩
    rw [word_cons] at hr ⊢
    obtain ⟨v, hv1⟩ := hv n (by simp)
    have hr' : Run h ((n, false) :: (r.word ++ q :: Y)) := by
      refine run_right ((n, true) :: k.word) ?_
      simpa using hr
    have hnl : ((n, true) : Pos) ≠ l := by rintro rfl; simp at hl
    rw [firstOf_cons, Heap.skipForward, if_pos ⟨rfl, hnl⟩]
    simp only [hv1]
    by_cases hp : p v = true
    · rw [if_pos hp, prune, if_pos (by simp [sat, hv1, hp])]; rfl
    · rw [if_neg hp, prune, if_neg (by simp [sat, hv1, hp])]
      simp only [trailingOf, run_head' hr']
      exact ih Y fuel (run_tail hr') (fun m hm => hv m (by simp [hm])) (by omega)

theorem filterWalk_eq {h : Heap α} {p : α → Bool} {first l : Pos} (hl : l.2 = false) (fuel : Nat) (S : Forest Nat) :
    ∀ (Y : List Pos) (q : Pos) (m : Nat), q.2 = false → Run h (S.word ++ q :: Y) → l ∉ S.word → (∀ n ∈ S.pre, ∃ v, h.val n = some v) →
    S.card + 1 ≤ fuel →
    h.filterWalk p first l fuel (m + 2 * S.card) (firstOf (S.prune (sat h.val p)).word q, true) =
      (h.filterWalk p first l fuel (m + 2 * (S.card - (S.prune (sat h.val p)).card)) (q, true)).map ((S.prune (sat h.val p)).word ++ ·) := by
  induction S with
  | nil => intro Y q m _ _ _ _ _; simp [prune, firstOf, card]
  | cons n k r ihk ihr =>
    intro Y q m hq hr hlS hv hf
    simp only [card] at hf
    rw [word_cons] at hr hlS
    have hr1 : Run h ((n, true) :: (k.word ++ (n, false) :: (r.word ++ q :: Y))) := by simpa using hr
    have hr2 : Run h ((n, false) :: (r.word ++ q :: Y)) := run_right k.word (run_tail hr1)
    have hck : ∀ S : Forest Nat, (S.prune (sat h.val p)).card ≤ S.card := by
      intro S
      induction S with
      | nil => simp [prune]
      | cons a b c i1 i2 =>
        simp only [prune]
        split
        · simp only [card]; omega
        · simp only [card]; omega
    have hk := hck k
    have hrc := hck r
    by_cases hp : sat h.val p n = true
    · have hpr : (Forest.cons n k r).prune (sat h.val p) = .cons n (k.prune (sat h.val p)) (r.prune (sat h.val p)) := by
        rw [prune, if_pos hp]
      rw [hpr, word_cons]
      have hne1 : ((n, true) : Pos) ≠ l := by rintro rfl; simp at hl
      have hne2 : (n, false) ≠ l := by rintro rfl; simp at hlS
      have hf1 : m + 2 * (Forest.cons n k r).card = ((m + 2 * r.card) + 1 + 2 * k.card) + 1 := by simp only [card]; omega
      rw [hf1, firstOf_cons, Heap.filterWalk]
      simp only [if_neg hne1]
      have s1 : h.filterInc p first l fuel ((n, true), true) = some (firstOf (k.prune (sat h.val p)).word (n, false), true) := by
        simp only [Heap.filterInc, if_neg hne1, run_head' hr1, ite_self, if_true]
        rw [skipForward_eq rfl hl k (r.word ++ q :: Y) fuel (run_tail hr1) (fun m hm => hv m (by simp [hm])) (by omega)]
        rfl
      rw [s1]
      simp only
      rw [ihk (r.word ++ q :: Y) (n, false) _ rfl (run_tail hr1) (by intro h; exact hlS (by simp [h])) (fun m hm => hv m (by simp [hm])) (by omega)]
      have hf2 : m + 2 * r.card + 1 + 2 * (k.card - (k.prune (sat h.val p)).card) = (m + 2 * (k.card - (k.prune (sat h.val p)).card) + 2 * r.card) + 1 := by omega
      rw [hf2, Heap.filterWalk]
      simp only [if_neg hne2]
      have s2 : h.filterInc p first l fuel ((n, false), true) = some (firstOf (r.prune (sat h.val p)).word q, true) := by
        simp only [Heap.filterInc, if_neg hne2, run_head' hr2, ite_self, if_true]
        rw [skipForward_eq hq hl r Y fuel (run_tail hr2) (fun m hm => hv m (by simp [hm])) (by omega)]
        rfl
      rw [s2]
      simp only
      rw [ihr Y q _ hq (run_tail hr2) (by intro h; exact hlS (by simp [h])) (fun m hm => hv m (by simp [hm])) (by omega)]
      have hf3 : m + 2 * (k.card - (k.prune (sat h.val p)).card) + 2 * (r.card - (r.prune (sat h.val p)).card) =
          m + 2 * ((Forest.cons n k r).card - (Forest.cons n (k.prune (sat h.val p)) (r.prune (sat h.val p))).card) := by
        simp only [card]; omega
      rw [hf3]
      simp only [Option.map_map]
      congr 1
      funext L
      simp
    · have hpr : (Forest.cons n k r).prune (sat h.val p) = r.prune (sat h.val p) := by
        rw [prune, if_neg hp]
      rw [hpr]
      have hf1 : m + 2 * (Forest.cons n k r).card = (m + 2 + 2 * k.card) + 2 * r.card := by simp only [card]; omega
      rw [hf1, ihr Y q _ hq (run_tail hr2) (by intro h; exact hlS (by simp [h])) (fun m hm => hv m (by simp [hm])) (by omega)]
      congr 2
      simp only [card]; omega

theorem filterRange_eq {h : Heap α} {t : Nat} {F : Forest Nat} (v : Valid h t F) (hv : ∀ n ∈ F.pre, ∃ v, h.val n = some v) (p : α → Bool)
    {fuel : Nat} (hf : 2 * F.card + 1 ≤ fuel) :
    h.filterRange p fuel t = some (F.prune (sat h.val p)).word := by
  have hb : h.begin t = firstOf F.word (t, false) := by rw [begin_eq v, at_]; simp [Ctx.rw]
  have hr := run_tail v.run
  have hl : (t, false) ∉ F.word := by rw [mem_word]; exact (List.nodup_cons.1 v.nd).1
  have s0 := skipForward_eq (p := p) (l := (t, false)) (q := (t, false)) rfl rfl F [] fuel hr hv (by omega)
  unfold Heap.filterRange
  rw [hb, end_, s0]
  simp only
  have := filterWalk_eq (p := p) (first := firstOf F.word (t, false)) (l := (t, false)) rfl fuel F [] (t, false) (fuel - 2 * F.card) rfl hr hl hv (by omega)
  rw [Nat.sub_add_cancel (by omega)] at this
  rw [this]
  cases (fuel - 2 * F.card + 2 * (F.card - (prune (sat h.val p) F).card)) <;> simp [Heap.filterWalk]

/-! ### equality -/

/-- matching edges -/
def Mt (R : Nat → Nat → Prop) (a b : Pos) : Prop := a.2 = b.2 ∧ (a.2 = true → R a.1 b.1)

theorem match_parse {R : Nat → Nat → Prop} (F : Forest Nat) : ∀ (G : Forest Nat) (X Y : List Pos), (∀ x ∈ X.head?, x.2 = false) → (∀ x ∈ Y.head?, x.2 = false) →
    List.Forall₂ (Mt R) (F.word ++ X) (G.word ++ Y) → F.rel R G ∧ List.Forall₂ (Mt R) X Y := by
  induction F with
  | nil =>
    intro G X Y hX hY hm
    cases G with
    | nil => exact ⟨trivial, hm⟩
    | cons n k r =>
      simp only [word_nil, List.nil_append, word_cons, List.cons_append] at hm
      cases hm with
      | cons h _ =>
        have := hX _ (by simp; rfl)
        rw [h.1] at this; simp at this
  | cons n k r ihk ihr =>
    intro G X Y hX hY hm
    cases G with
    | nil =>
      simp only [word_nil, List.nil_append, word_cons, List.cons_append] at hm
      cases hm with
      | cons h _ =>
        have := hY _ (by simp; rfl)
        rw [← h.1] at this; simp at this
    | cons n' k' r' =>
      simp only [word_cons, List.cons_append, List.append_assoc] at hm
      cases hm with
      | cons h hm =>
        obtain ⟨h1, h2⟩ := ihk k' _ _ (by simp) (by simp) hm
        cases h2 with
        | cons _ h2 =>
          obtain ⟨h3, h4⟩ := ihr r' X Y hX hY h2
          exact ⟨⟨h.2 rfl, h1, h3⟩, h4⟩

theorem match_of_rel {R : Nat → Nat → Prop} (F : Forest Nat) : ∀ (G : Forest Nat), F.rel R G → List.Forall₂ (Mt R) F.word G.word := by
  induction F with
  | nil => intro G h; cases G with
    | nil => exact .nil
    | cons => exact h.elim
  | cons n k r ihk ihr =>
    intro G h
    cases G with
    | nil => exact h.elim
    | cons n' k' r' =>
      obtain ⟨h1, h2, h3⟩ := h
      rw [word_cons, word_cons]
      refine .cons ⟨rfl, fun _ => h1⟩ ?_
      exact List.rel_append (ihk k' h2) (.cons ⟨rfl, by simp⟩ (ihr r' h3))

theorem rel_iff {R : Nat → Nat → Prop} (F G : Forest Nat) : F.rel R G ↔ List.Forall₂ (Mt R) F.word G.word := by
  refine ⟨match_of_rel F G, fun h => ?_⟩
  exact (match_parse F G [] [] (by simp) (by simp) (by simpa using h)).1

/-- the values of two nodes are equal -/
def veqAt (V : Nat → Option α) (veq : α → α → Bool) (a b : Nat) : Prop := ∃ x y, V a = some x ∧ V b = some y ∧ veq x y = true

theorem eqLoop_eq {h : Heap α} (veq : α → α → Bool) {l : Pos} : ∀ (M N : List Pos) (z : Pos) (fuel : Nat), Run h (M ++ [l]) → Run h (N ++ [z]) →
    l ∉ M → M.length = N.length → (∀ p ∈ M, ∃ v, h.val p.1 = some v) → (∀ p ∈ N, ∃ v, h.val p.1 = some v) → M.length ≤ fuel →
    ∃ b, h.eqLoop veq l fuel (firstOf M l) (firstOf N z) = some b ∧ (b = true ↔ List.Forall₂ (Mt (veqAt h.val veq)) M N) := by
  intro M
  induction M with
  | nil =>
    intro N z fuel _ _ _ hlen _ _ _
    have : N = [] := by simpa using hlen.symm
    subst this
    refine ⟨true, ?_, by simp⟩
    cases fuel <;> simp [Heap.eqLoop, firstOf]
  | cons p M ih =>
    intro N z fuel hM hN hl hlen vM vN hf
    cases N with
    | nil => simp at hlen
    | cons q N =>
      obtain ⟨fuel, rfl⟩ : ∃ f, fuel = f + 1 := ⟨fuel - 1, by simp at hf; omega⟩
      have hpl : p ≠ l := by rintro rfl; simp at hl
      obtain ⟨x, hx⟩ := vM p (by simp)
      obtain ⟨y, hy⟩ := vN q (by simp)
      obtain ⟨b, hb, hb2⟩ := ih N z fuel (run_tail hM) (run_tail hN) (by intro h; exact hl (by simp [h])) (by simpa using hlen)
        (fun p hp => vM p (by simp [hp])) (fun p hp => vN p (by simp [hp])) (by simpa using hf)
      rw [firstOf_cons, firstOf_cons, Heap.eqLoop, if_neg hpl]
      by_cases he : p.2 = q.2
      · rw [if_neg (by simpa using he)]
        by_cases hp : p.2 = true
        · rw [if_pos hp]
          simp only [hx, hy]
          by_cases hxy : veq x y = true
          · rw [if_pos hxy, run_head hM, run_head hN]
            refine ⟨b, hb, ?_⟩
            rw [hb2, List.forall₂_cons]
            constructor
            · intro h; exact ⟨⟨he, fun _ => ⟨x, y, hx, hy, hxy⟩⟩, h⟩
            · exact fun h => h.2
          · rw [if_neg hxy]
            refine ⟨false, rfl, ?_⟩
            simp only [Bool.false_eq_true, false_iff, List.forall₂_cons]
            rintro ⟨⟨_, h⟩, _⟩
            obtain ⟨x', y', h1, h2, h3⟩ := h hp
            rw [hx] at h1; rw [hy] at h2
            cases h1; cases h2
            exact hxy h3
        · rw [if_neg hp, run_head hM, run_head hN]
          refine ⟨b, hb, ?_⟩
          rw [hb2, List.forall₂_cons]
          constructor
          · intro h; exact ⟨⟨he, fun h => absurd h hp⟩, h⟩
          · exact fun h => h.2
      · rw [if_pos he]
        refine ⟨false, rfl, ?_⟩
        simp only [Bool.false_eq_true, false_iff, List.forall₂_cons]
        rintro ⟨⟨h, _⟩, _⟩
        exact he h

theorem rel_card {R : Nat → Nat → Prop} {F G : Forest Nat} (h : F.rel R G) : F.card = G.card := by
  have := ((rel_iff F G).1 h).length_eq
  rw [word_length, word_length] at this; omega

theorem Rep.eq {s : St α} {A : AS α} (r : Rep s A) (veq : α → α → Bool) {t u : Nat} (ht : t ∈ A.tails) (hu : u ∈ A.tails) {fuel : Nat}
    (hf : 2 * (A.F t).card + 1 ≤ fuel) (hg : 2 * (A.F u).card + 1 ≤ fuel) :
    ∃ s' b, s.eq veq fuel t u = some (s', b) ∧ Rep s' A ∧ (b = true ↔ (A.F t).rel (veqAt A.V veq) (A.F u)) := by
  obtain ⟨s1, e1, r1, _⟩ := r.getSize ht hf
  obtain ⟨s2, e2, r2, _⟩ := r1.getSize hu hg
  unfold St.eq
  simp only [e1, e2]
  by_cases hc : (A.F t).card = (A.F u).card
  · rw [if_neg (by simpa using hc)]
    have vt := r2.valid t ht
    have vu := r2.valid u hu
    have hb1 : s2.heap.begin t = firstOf (A.F t).word (t, false) := by rw [begin_eq vt, at_]; simp [Ctx.rw]
    have hb2 : s2.heap.begin u = firstOf (A.F u).word (u, false) := by rw [begin_eq vu, at_]; simp [Ctx.rw]
    obtain ⟨b, h1, h2⟩ := eqLoop_eq (h := s2.heap) veq (l := (t, false)) (A.F t).word (A.F u).word (u, false) fuel (run_tail vt.run) (run_tail vu.run)
      (by rw [mem_word]; exact (List.nodup_cons.1 vt.nd).1) (by rw [word_length, word_length, hc])
      (by intro p hp; rw [r2.vals]; exact (r2.live t ht).1 _ (mem_word.1 hp))
      (by intro p hp; rw [r2.vals]; exact (r2.live u hu).1 _ (mem_word.1 hp)) (by rw [word_length]; omega)
    rw [hb1, hb2, end_, h1]
    refine ⟨s2, b, rfl, r2, ?_⟩
    rw [h2, rel_iff, r2.vals]
  · rw [if_pos hc]
    refine ⟨s2, false, rfl, r2, ?_⟩
    simp only [Bool.false_eq_true, false_iff]
    intro h; exact hc (rel_card h)

end Verif.Forest

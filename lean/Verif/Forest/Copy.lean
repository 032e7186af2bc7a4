import Verif.Forest.EraseRange

namespace Verif.Forest
open Verif.Ring Forest

variable {α : Type}

theorem map_congr {F : Forest Nat} {V V' : Nat → Option α} (h : ∀ n ∈ F.pre, V n = V' n) : F.map V = F.map V' := by
  induction F with
  | nil => rfl
  | cons n k r ihk ihr =>
    simp only [Forest.map]
    rw [h n (by simp), ihk (fun m hm => h m (by simp [hm])), ihr (fun m hm => h m (by simp [hm]))]

theorem at_after (t : Nat) (c : Ctx Nat) (n : Nat) (k R : Forest Nat) : at_ t (c.comp (.after n k .top)) R = at_ t c R := by
  simp [at_, rw_comp, Ctx.rw]

theorem upd_upd {A : Nat → Forest Nat} {t : Nat} {x y : Forest Nat} : upd (upd A t x) t y = upd A t y := by
  funext w
  by_cases hw : w = t
  · rw [hw, upd_same, upd_same]
  · rw [upd_ne _ _ _ _ hw, upd_ne _ _ _ _ hw, upd_ne _ _ _ _ hw]

theorem insertCopy_lead {t : Nat} {last : Pos} {s : St α} {pos : Pos} {n n' : Nat} {x : α} {l : List Nat} (fuel : Nat)
    (hne : (n, true) ≠ last) (hv : s.heap.val n = some x) :
    St.insertCopy t last (fuel + 1) s pos (n, true) (n' :: l) =
      St.insertCopy t last fuel (s.insert t pos x n').1 ((s.insert t pos x n').1.heap.inc (s.insert t pos x n').2)
        ((s.insert t pos x n').1.heap.inc (n, true)) l := by
  conv_lhs => unfold St.insertCopy
  rw [if_neg hne, if_pos rfl]
  simp only [hv]

theorem insertCopy_trail {t : Nat} {last : Pos} {s : St α} {pos : Pos} {n : Nat} {l : List Nat} (fuel : Nat)
    (hne : (n, false) ≠ last) :
    St.insertCopy t last (fuel + 1) s pos (n, false) l =
      St.insertCopy t last fuel s (s.heap.inc pos) (s.heap.inc (n, false)) l := by
  conv_lhs => unfold St.insertCopy
  rw [if_neg hne, if_neg (by simp)]

/-- copying the trees `S`, which lie in the traversal of another forest -/
theorem insertCopy_trees {t u : Nat} {last : Pos} (hut : u ≠ t) (S : Forest Nat) :
    ∀ (s : St α) (A : AS α) (c : Ctx Nat) (R : Forest Nat) (P Q : List Pos) (q : Pos) (ns rest : List Nat) (fuel : Nat),
    Rep s A → t ∈ A.tails → u ∈ A.tails → A.F t = plug c R →
    full u (A.F u) = P ++ (S.word ++ q :: Q) → last ∉ S.word → (∀ n ∈ S.pre, n ∈ (A.F u).pre) →
    ns.length = S.card → Avail A ns →
    ∃ s' S' V', S'.pre = ns ∧ S'.map V' = S.map A.V ∧ (∀ n, n ∉ ns → V' n = A.V n) ∧
      St.insertCopy t last (fuel + 2 * S.card) s (at_ t c R) (firstOf S.word q) (ns ++ rest) =
        St.insertCopy t last fuel s' (at_ t c R) q rest ∧
      Rep s' { A with F := upd A.F t (plug c (append S' R)), V := V' } := by
  induction S with
  | nil =>
    intro s A c R P Q q ns rest fuel r ht hu hF hP hl hsub hns hav
    have : ns = [] := by simpa [card] using hns
    subst this
    refine ⟨s, .nil, A.V, rfl, rfl, fun _ _ => rfl, ?_, ?_⟩
    · simp [card, firstOf]
    · simp only [append]; rw [AS.ext_F hF]; exact r
  | cons n k rr ihk ihr =>
    intro s A c R P Q q ns rest fuel r ht hu hF hP hl hsub hns hav
    obtain ⟨n', ns, rfl⟩ : ∃ a l, ns = a :: l := by
      cases ns with
      | nil => simp [card] at hns; omega
      | cons a l => exact ⟨a, l, rfl⟩
    simp only [card, List.length_cons] at hns
    obtain ⟨nk, nr, rfl, hnk, hnr⟩ : ∃ nk nr, ns = nk ++ nr ∧ nk.length = k.card ∧ nr.length = rr.card := by
      refine ⟨ns.take k.card, ns.drop k.card, (List.take_append_drop _ _).symm, ?_, ?_⟩
      · rw [List.length_take]; omega
      · rw [List.length_drop]; omega
    obtain ⟨hnd, hfr⟩ := hav
    rw [List.nodup_cons, List.nodup_append] at hnd
    obtain ⟨hn1, hn2, hn3, hn4⟩ := hnd
    have hnu : n ∈ (A.F u).pre := hsub n (by simp)
    obtain ⟨x, hx⟩ := (r.live u hu).1 n hnu
    have hn' : Fresh A n' := hfr n' (by simp)
    have hneq : n ≠ n' := by rintro rfl; rw [hn'.1] at hx; cases hx
    obtain ⟨r1, p1⟩ := r.insert ht hF hn' x
    -- positions after the insertion
    have hw : (Forest.cons n k rr).word = (n, true) :: (k.word ++ (n, false) :: rr.word) := rfl
    rw [hw] at hP hl
    have hFu1 : upd A.F t (plug c (.cons n' .nil R)) u = A.F u := upd_ne _ _ _ _ hut
    have v1 := r1.valid u hu
    change Valid _ u (upd A.F t (plug c (.cons n' .nil R)) u) at v1
    rw [hFu1] at v1
    have vt1 := r1.valid t ht
    change Valid _ t (upd A.F t (plug c (.cons n' .nil R)) t) at vt1
    rw [upd_same] at vt1
    have hinc1 : (s.insert t (at_ t c R) x n').1.heap.inc (n, true) = firstOf k.word (n, false) := by
      obtain ⟨Q', e⟩ := firstOf_split k.word (n, false) (rr.word ++ q :: Q)
      refine (v1.step (A := P) (B := Q') ?_).1
      rw [hP, ← e]; simp
    have hpos1 : (s.insert t (at_ t c R) x n').1.heap.inc (n', true) = (n', false) := by
      rw [vt1.node.2.1]; rfl
    -- the children
    have c1 : (upd A.F t (plug c (.cons n' .nil R)) t) = plug (c.comp (.inside n' .top R)) .nil := by
      rw [upd_same, plug_comp]; rfl
    have hav1 : Avail { A with F := upd A.F t (plug c (.cons n' .nil R)), V := upd A.V n' (some x) } nk := by
      refine ⟨hn2, ?_⟩
      intro m hm
      have h0 := hfr m (by simp [hm])
      refine ⟨?_, h0.2⟩
      show upd A.V n' (some x) m = none
      rw [upd_ne _ _ _ _ (by rintro rfl; exact hn1 (by simp [hm]))]; exact h0.1
    obtain ⟨s2, k', V2, a1, a2, a3, a4, r2⟩ := ihk (s.insert t (at_ t c R) x n').1 _ (c.comp (.inside n' .top R)) .nil (P ++ [(n, true)])
      (rr.word ++ q :: Q) (n, false) nk (nr ++ rest) (fuel + 2 * rr.card + 1) r1 ht hu c1
      (by show full u (upd A.F t (plug c (.cons n' .nil R)) u) = _; rw [hFu1, hP]; simp)
      (by intro h; exact hl (by simp [h]))
      (by intro m hm; show m ∈ (upd A.F t (plug c (.cons n' .nil R)) u).pre; rw [hFu1]; exact hsub m (by simp [hm]))
      hnk hav1
    simp only at a2 a3
    rw [at_inside] at a4
    -- closing edge
    have hFt2 : upd (upd A.F t (plug c (.cons n' .nil R))) t (plug (c.comp (.inside n' .top R)) (append k' .nil)) =
        upd A.F t (plug c (.cons n' k' R)) := by
      rw [upd_upd, plug_comp, append_nil]; rfl
    change Rep s2 { A with F := upd (upd A.F t (plug c (.cons n' .nil R))) t (plug (c.comp (.inside n' .top R)) (append k' .nil)), V := V2 } at r2
    rw [hFt2] at r2
    have vt2 := r2.valid t ht
    change Valid _ t (upd A.F t (plug c (.cons n' k' R)) t) at vt2
    rw [upd_same] at vt2
    have v2 := r2.valid u hu
    change Valid _ u (upd A.F t (plug c (.cons n' k' R)) u) at v2
    rw [upd_ne _ _ _ _ hut] at v2
    have hinc2 : s2.heap.inc (n, false) = firstOf rr.word q := by
      obtain ⟨Q', e⟩ := firstOf_split rr.word q Q
      refine (v2.step (A := P ++ (n, true) :: k.word) (B := Q') ?_).1
      rw [hP, ← e]; simp
    have hpos2 : s2.heap.inc (n', false) = at_ t c R := vt2.node.2.2.2
    -- the siblings
    have hav2 : Avail { A with F := upd A.F t (plug c (.cons n' k' R)), V := V2 } nr := by
      refine ⟨hn3, ?_⟩
      intro m hm
      have h0 := hfr m (by simp [hm])
      refine ⟨?_, h0.2⟩
      show V2 m = none
      rw [a3 m (by intro h; exact hn4 m h m hm rfl), upd_ne _ _ _ _ (by rintro rfl; exact hn1 (by simp [hm]))]; exact h0.1
    obtain ⟨s3, r', V3, b1, b2, b3, b4, r3⟩ := ihr s2 _ (c.comp (.after n' k' .top)) R (P ++ (n, true) :: (k.word ++ [(n, false)]))
      Q q nr rest fuel r2 ht hu
      (by show upd A.F t (plug c (.cons n' k' R)) t = _; rw [upd_same, plug_comp]; rfl)
      (by show full u (upd A.F t (plug c (.cons n' k' R)) u) = _; rw [upd_ne _ _ _ _ hut, hP]; simp)
      (by intro h; exact hl (by simp [h]))
      (by intro m hm; show m ∈ (upd A.F t (plug c (.cons n' k' R)) u).pre; rw [upd_ne _ _ _ _ hut]; exact hsub m (by simp [hm]))
      hnr hav2
    simp only at b2 b3
    rw [at_after] at b4
    have sub_live : ∀ m, m ∈ (A.F u).pre → m ≠ n' ∧ m ∉ nk ∧ m ∉ nr := by
      intro m hm
      obtain ⟨y, hy⟩ := (r.live u hu).1 m hm
      refine ⟨?_, ?_, ?_⟩
      · rintro rfl; rw [hn'.1] at hy; cases hy
      · intro h; rw [(hfr m (by simp [h])).1] at hy; cases hy
      · intro h; rw [(hfr m (by simp [h])).1] at hy; cases hy
    refine ⟨s3, .cons n' k' r', V3, by simp [a1, b1], ?_, ?_, ?_, ?_⟩
    · simp only [Forest.map]
      have e1 : V3 n' = A.V n := by
        rw [b3 n' (by intro h; exact hn1 (by simp [h])), a3 n' (by intro h; exact hn1 (by simp [h])), upd_same, hx]
      have e2 : k'.map V3 = k.map A.V := by
        rw [map_congr (V' := V2), a2]
        · apply map_congr
          intro m hm
          exact upd_ne _ _ _ _ (sub_live m (hsub m (by simp [hm]))).1
        · intro m hm
          rw [a1] at hm
          exact b3 m (by intro h; exact hn4 m hm m h rfl)
      have e3 : r'.map V3 = rr.map A.V := by
        rw [b2]
        apply map_congr
        intro m hm
        have := sub_live m (hsub m (by simp [hm]))
        rw [a3 m this.2.1, upd_ne _ _ _ _ this.1]
      rw [e1, e2, e3]
    · intro m hm
      simp only [List.mem_cons, List.mem_append, not_or] at hm
      rw [b3 m hm.2.2, a3 m hm.2.1, upd_ne _ _ _ _ hm.1]
    · rw [← b4]
      have hfl : fuel + 2 * (Forest.cons n k rr).card = (fuel + 2 * rr.card + 1 + 2 * k.card) + 1 := by simp only [card]; omega
      rw [hfl, hw, firstOf_cons]
      have hne1 : (n, true) ≠ last := by rintro rfl; exact hl (by simp)
      have hne2 : (n, false) ≠ last := by rintro rfl; exact hl (by simp)
      have hval : s.heap.val n = some x := by rw [r.vals]; exact hx
      simp only [List.cons_append]
      rw [insertCopy_lead _ hne1 hval, p1, hpos1, hinc1, List.append_assoc, a4, insertCopy_trail _ hne2, hpos2, hinc2]
    · have e : upd (upd A.F t (plug c (.cons n' k' R))) t (plug (c.comp (.after n' k' .top)) (append r' R)) =
        upd A.F t (plug c (append (.cons n' k' r') R)) := by
        rw [upd_upd, plug_comp]; rfl
      rw [← e]; exact r3

/-- `insert(pos, f, l)` from another forest -/
theorem Rep.insertCopy {s : St α} {A : AS α} (r : Rep s A) {t u : Nat} (ht : t ∈ A.tails) (hu : u ∈ A.tails) (hut : u ≠ t)
    {c d : Ctx Nat} {R S Q : Forest Nat} (hF : A.F t = plug c R) (hFu : A.F u = plug d (append S Q))
    {ns : List Nat} (hns : ns.length = S.card) (hav : Avail A ns) {fuel : Nat} (hfuel : 2 * S.card ≤ fuel) :
    ∃ s' S' V', S'.pre = ns ∧ S'.map V' = S.map A.V ∧ (∀ n, n ∉ ns → V' n = A.V n) ∧
      St.insertCopy t (at_ u d Q) fuel s (at_ t c R) (at_ u d (append S Q)) ns = some (s', at_ t c R) ∧
      Rep s' { A with F := upd A.F t (plug c (append S' R)), V := V' } := by
  obtain ⟨B, eB⟩ := rest_split u d Q
  have v := r.valid u hu
  rw [hFu] at v
  have hl : at_ u d Q ∉ S.word := by
    intro h
    exact S_not_rest v.nd _ (mem_word.1 h) (at_mem u d Q)
  obtain ⟨s', S', V', h1, h2, h3, h4, h5⟩ := insertCopy_trees (last := at_ u d Q) hut S s A c R ((u, true) :: d.lw) B (at_ u d Q) ns [] (fuel - 2 * S.card) r ht hu hF
    (by rw [hFu, full_plug, word_append, List.append_assoc, eB]) hl
    (by intro m hm; rw [hFu, pre_plug_append]; exact Or.inl hm) hns hav
  refine ⟨s', S', V', h1, h2, h3, ?_, h5⟩
  have e1 : firstOf S.word (at_ u d Q) = at_ u d (append S Q) := by
    rw [at_, at_, word_append]
    cases S.word <;> rfl
  rw [e1, Nat.sub_add_cancel hfuel, List.append_nil] at h4
  rw [h4]
  cases (fuel - 2 * S.card) <;> simp [St.insertCopy]

/-- copy construction -/
theorem Rep.copy {s : St α} {A : AS α} (r : Rep s A) {t u : Nat} (ht : Fresh A t) (hu : u ∈ A.tails)
    {ns : List Nat} (hns : ns.length = (A.F u).card) (hav : Avail A ns) (htn : t ∉ ns) {fuel : Nat} (hfuel : 2 * (A.F u).card ≤ fuel) :
    ∃ s' S' V', S'.pre = ns ∧ S'.map V' = (A.F u).map A.V ∧ (∀ n, n ∉ ns → V' n = A.V n) ∧
      s.copy fuel t u ns = some s' ∧
      Rep s' { A with tails := t :: A.tails, F := upd A.F t S', V := V' } := by
  have r1 := r.create ht
  have hut : u ≠ t := by rintro rfl; exact ht.2 hu
  have eu : upd A.F t Forest.nil u = A.F u := upd_ne _ _ _ _ hut
  obtain ⟨s', S', V', h1, h2, h3, h4, h5⟩ := r1.insertCopy (t := t) (u := u) (c := .top) (d := .top) (R := .nil) (S := A.F u) (Q := .nil) (ns := ns)
    (by simp) (by simp [hu]) hut (by simp [plug]) (by simp only [plug, append_nil]; exact eu) hns
    ⟨hav.1, fun n hn => ⟨(hav.2 n hn).1, by
      show n ∉ t :: A.tails
      rw [List.mem_cons, not_or]
      exact ⟨by rintro rfl; exact htn hn, (hav.2 n hn).2⟩⟩⟩ hfuel
  refine ⟨s', S', V', h1, h2, h3, ?_, ?_⟩
  · unfold St.copy
    have hb : (s.create t).heap.begin u = at_ u .top (A.F u) := by
      have := begin_eq (r1.valid u (by simp [hu]))
      change (s.create t).heap.begin u = at_ u .top (upd A.F t Forest.nil u) at this
      rw [eu] at this; exact this
    rw [append_nil] at h4
    have e1 : at_ u .top (Forest.nil) = end_ u := rfl
    have e2 : at_ t .top (Forest.nil) = end_ t := rfl
    rw [e1, e2] at h4
    simp only [hb, h4, Option.map_some]
  · have e : upd (upd A.F t Forest.nil) t (plug .top (append S' .nil)) = upd A.F t S' := by
      rw [upd_upd, append_nil]; rfl
    rw [← e]; exact h5

/-! ### destruction and moves -/

theorem Rep.drop {s : St α} {A : AS α} (r : Rep s A) {t : Nat} (ht : t ∈ A.tails) (hF : A.F t = .nil) (junk : Pos → Nat) :
    Rep ⟨{ s.heap with nxt := fun p => if p.1 = t then junk p else s.heap.nxt p, prv := fun p => if p.1 = t then junk p else s.heap.prv p },
      upd s.size t 0⟩ { A with tails := A.tails.filter (fun u => decide (u ≠ t)) } := by
  have hm : ∀ u, u ∈ A.tails.filter (fun u => decide (u ≠ t)) ↔ u ∈ A.tails ∧ u ≠ t := by intro u; simp
  refine ⟨?_, ?_, r.vals, ?_, ?_, ?_⟩
  · intro u hu
    obtain ⟨hu, hut⟩ := (hm u).1 hu
    apply (r.valid u hu).congr
    intro p hp
    have : p.1 ≠ t := by
      intro e
      rw [e] at hp
      exact r.disj t ht u hu (Ne.symm hut) t (by simp) hp
    simp [this]
  · intro u hu w hw
    exact r.disj u ((hm u).1 hu).1 w ((hm w).1 hw).1
  · intro u hu; exact r.live u ((hm u).1 hu).1
  · intro u hu
    obtain ⟨hu, hut⟩ := (hm u).1 hu
    show upd s.size t 0 u = 0 ∨ upd s.size t 0 u = _
    rw [upd_ne _ _ _ _ hut]; exact r.size u hu
  · intro n v hv
    obtain ⟨w, hw, hn⟩ := r.leak n v hv
    refine ⟨w, (hm w).2 ⟨hw, ?_⟩, hn⟩
    rintro rfl
    rw [hF] at hn; simp at hn

theorem Rep.destroy (junk : Pos → Nat) {s : St α} {A : AS α} (r : Rep s A) {t : Nat} (ht : t ∈ A.tails) {fuel : Nat}
    (hfuel : 2 * (A.F t).card ≤ fuel) :
    ∃ s', s.destroy junk fuel t = some s' ∧
      Rep s' { tails := A.tails.filter (fun u => decide (u ≠ t)), F := upd A.F t .nil, V := fun n => if n ∈ (A.F t).pre then none else A.V n } := by
  obtain ⟨s1, h1, r1⟩ := r.clear junk ht hfuel
  refine ⟨_, by unfold St.destroy; rw [h1]; rfl, ?_⟩
  exact r1.drop ht (upd_same _ _ _) junk

theorem Rep.moveAssign (junk : Pos → Nat) {s : St α} {A : AS α} (r : Rep s A) {t u : Nat} (ht : t ∈ A.tails) (hu : u ∈ A.tails) (hut : u ≠ t)
    {fuel : Nat} (hfuel : 2 * (A.F t).card ≤ fuel) :
    ∃ s', s.moveAssign junk fuel t u = some s' ∧
      Rep s' { A with F := upd (upd A.F u .nil) t (A.F u), V := fun n => if n ∈ (A.F t).pre then none else A.V n } := by
  obtain ⟨s1, h1, r1⟩ := r.clear junk ht hfuel
  refine ⟨_, by unfold St.moveAssign; rw [h1]; rfl, ?_⟩
  have := (r1.splice_all (t := t) (u := u) (c' := .top) (R' := .nil) ht hu hut (upd_same _ _ _)).2
  have e1 : upd A.F t Forest.nil u = A.F u := upd_ne _ _ _ _ hut
  simp only [e1, append_nil, plug] at this
  have e : upd (upd (upd A.F t Forest.nil) u Forest.nil) t (A.F u) = upd (upd A.F u Forest.nil) t (A.F u) := by
    funext w
    by_cases hwt : w = t
    · rw [hwt, upd_same, upd_same]
    · rw [upd_ne _ _ _ _ hwt, upd_ne _ _ _ _ hwt]
      by_cases hwu : w = u
      · rw [hwu, upd_same, upd_same]
      · rw [upd_ne _ _ _ _ hwu, upd_ne _ _ _ _ hwu, upd_ne _ _ _ _ hwt]
  rw [e] at this
  exact this

theorem Rep.moveCtor {s : St α} {A : AS α} (r : Rep s A) {t u : Nat} (ht : Fresh A t) (hu : u ∈ A.tails) :
    Rep (s.moveCtor t u) { A with tails := t :: A.tails, F := upd (upd A.F u .nil) t (A.F u) } := by
  have r1 := r.create ht
  have hut : u ≠ t := by rintro rfl; exact ht.2 hu
  have := (r1.splice_all (t := t) (u := u) (c' := .top) (R' := .nil) (by simp) (by simp [hu]) hut (upd_same _ _ _)).2
  have e1 : upd A.F t Forest.nil u = A.F u := upd_ne _ _ _ _ hut
  simp only [e1, append_nil, plug] at this
  have e : upd (upd (upd A.F t Forest.nil) u Forest.nil) t (A.F u) = upd (upd A.F u Forest.nil) t (A.F u) := by
    funext w
    by_cases hwt : w = t
    · rw [hwt, upd_same, upd_same]
    · rw [upd_ne _ _ _ _ hwt, upd_ne _ _ _ _ hwt]
      by_cases hwu : w = u
      · rw [hwu, upd_same, upd_same]
      · rw [upd_ne _ _ _ _ hwu, upd_ne _ _ _ _ hwu, upd_ne _ _ _ _ hwt]
  rw [e] at this
  exact this

end Verif.Forest

import Verif.Forest.Model
import Verif.Forest.Spec
import Mathlib.Tactic.Tauto
import Mathlib.Data.List.Nodup

namespace Verif.Forest
open Verif.Ring

variable {α β : Type}

/-! ### words -/

namespace Forest

@[simp] theorem word_nil : (nil : Forest β).word = [] := rfl
@[simp] theorem word_cons (n : β) (k r : Forest β) : (cons n k r).word = (n, true) :: (k.word ++ (n, false) :: r.word) := rfl
@[simp] theorem pre_nil : (nil : Forest β).pre = [] := rfl
@[simp] theorem pre_cons (n : β) (k r : Forest β) : (cons n k r).pre = n :: (k.pre ++ r.pre) := rfl

@[simp] theorem append_nil (f : Forest β) : append f nil = f := by
  induction f with
  | nil => rfl
  | cons n k r _ ih => simp [append, ih]

theorem append_assoc (f g h : Forest β) : append (append f g) h = append f (append g h) := by
  induction f with
  | nil => rfl
  | cons n k r _ ih => simp [append, ih]

@[simp] theorem word_append (f g : Forest β) : (append f g).word = f.word ++ g.word := by
  induction f with
  | nil => rfl
  | cons n k r _ ih => simp [append, ih]

@[simp] theorem pre_append (f g : Forest β) : (append f g).pre = f.pre ++ g.pre := by
  induction f with
  | nil => rfl
  | cons n k r _ ih => simp [append, ih]

theorem card_eq (f : Forest β) : f.card = f.pre.length := by
  induction f with
  | nil => rfl
  | cons n k r ihk ihr => simp [card, ihk, ihr]; omega

theorem word_length (f : Forest β) : f.word.length = 2 * f.card := by
  induction f with
  | nil => rfl
  | cons n k r ihk ihr => simp [card, ihk, ihr]; omega

theorem mem_word {f : Forest β} {p : β × Bool} : p ∈ f.word ↔ p.1 ∈ f.pre := by
  induction f with
  | nil => simp
  | cons n k r ihk ihr =>
    obtain ⟨m, e⟩ := p
    simp only [word_cons, List.mem_cons, List.mem_append, ihk, ihr, pre_cons, Prod.mk.injEq]
    cases e <;> simp <;> tauto

theorem word_nodup {f : Forest β} (h : f.pre.Nodup) : f.word.Nodup := by
  induction f with
  | nil => simp
  | cons n k r ihk ihr =>
    rw [pre_cons, List.nodup_cons, List.nodup_append] at h
    obtain ⟨h1, h2, h3, h4⟩ := h
    simp only [List.mem_append, not_or] at h1
    rw [word_cons, List.nodup_cons, List.nodup_append, List.nodup_cons]
    refine ⟨?_, ihk h2, ⟨?_, ihr h3⟩, ?_⟩
    · simp only [List.mem_append, List.mem_cons, mem_word, Prod.mk.injEq, not_or]
      refine ⟨h1.1, by simp, h1.2⟩
    · rw [mem_word]; exact h1.2
    · intro a ha b hb
      rw [mem_word] at ha
      rw [List.mem_cons] at hb
      rintro rfl
      rcases hb with hb | hb
      · rw [hb] at ha; exact h1.1 ha
      · rw [mem_word] at hb; exact h4 _ ha _ hb rfl

/-- the part of the traversal before / after the hole -/
def Ctx.lw : Ctx β → List (β × Bool)
  | .top => []
  | .after n k c => (n, true) :: (k.word ++ (n, false) :: c.lw)
  | .inside n c _ => (n, true) :: c.lw
def Ctx.rw : Ctx β → List (β × Bool)
  | .top => []
  | .after _ _ c => c.rw
  | .inside n c r => c.rw ++ (n, false) :: r.word
/-- the nodes around the hole -/
def Ctx.ids : Ctx β → List β
  | .top => []
  | .after n k c => n :: (k.pre ++ c.ids)
  | .inside n c r => n :: (c.ids ++ r.pre)

theorem word_plug (c : Ctx β) (g : Forest β) : (plug c g).word = c.lw ++ (g.word ++ c.rw) := by
  induction c with
  | top => simp [plug, Ctx.lw, Ctx.rw]
  | after n k c ih => simp [plug, Ctx.lw, Ctx.rw, ih]
  | inside n c r ih => simp [plug, Ctx.lw, Ctx.rw, ih]

theorem pre_plug (c : Ctx β) (g : Forest β) : (plug c g).pre.Perm (c.ids ++ g.pre) := by
  induction c with
  | top => simp [plug, Ctx.ids]
  | after n k c ih =>
    simp only [plug, Ctx.ids, pre_cons, List.cons_append, List.append_assoc]
    exact (ih.append_left _).cons _
  | inside n c r ih =>
    simp only [plug, Ctx.ids, pre_cons, List.cons_append, List.append_assoc]
    refine List.Perm.cons _ ((ih.append_right _).trans ?_)
    rw [List.append_assoc]
    exact List.Perm.append_left _ List.perm_append_comm

/-- the hole of `d` inside the hole of `c` -/
def Ctx.comp : Ctx β → Ctx β → Ctx β
  | .top, d => d
  | .after n k c, d => .after n k (c.comp d)
  | .inside n c r, d => .inside n (c.comp d) r

@[simp] theorem plug_comp (c d : Ctx β) (g : Forest β) : plug (c.comp d) g = plug c (plug d g) := by
  induction c with
  | top => rfl
  | after n k c ih => simp [Ctx.comp, plug, ih]
  | inside n c r ih => simp [Ctx.comp, plug, ih]

/-- every element of the traversal is the first element of a hole (or the traversal's own end) -/
theorem ctx_cover (f : Forest β) (p : β × Bool) (e : β) (hp : p ∈ f.word ++ [(e, false)]) :
    ∃ c g, f = plug c g ∧ p = firstOf (g.word ++ c.rw) (e, false) := by
  induction f generalizing e with
  | nil =>
    simp at hp; subst hp
    exact ⟨.top, nil, rfl, rfl⟩
  | cons n k r ihk ihr =>
    simp only [word_cons, List.cons_append, List.append_assoc, List.mem_cons, List.mem_append] at hp
    have hp : p = (n, true) ∨ p ∈ k.word ++ [(n, false)] ∨ p ∈ r.word ++ [(e, false)] := by
      simp only [List.mem_append, List.mem_singleton]; tauto
    rcases hp with rfl | hp | hp
    · exact ⟨.top, cons n k r, rfl, rfl⟩
    · obtain ⟨c, g, rfl, rfl⟩ := ihk n hp
      refine ⟨.inside n c r, g, rfl, ?_⟩
      simp only [Ctx.rw]
      rw [← List.append_assoc]
      cases g.word ++ c.rw <;> rfl
    · obtain ⟨c, g, rfl, rfl⟩ := ihr e hp
      exact ⟨.after n k c, g, rfl, rfl⟩

end Forest
open Forest

/-! ### linked segments -/

def Seg (h : Heap α) : List Pos → Prop
  | p :: q :: l => (h.nxt p = q.1 ∧ h.prv q = p.1) ∧ Seg h (q :: l)
  | _ => True

theorem seg_mid {h : Heap α} (A : List Pos) (m : Pos) (B : List Pos) :
    Seg h (A ++ m :: B) ↔ Seg h (A ++ [m]) ∧ Seg h (m :: B) := by
  induction A with
  | nil => simp [Seg]
  | cons a A ih =>
    cases A with
    | nil => simp [Seg]
    | cons b A =>
      simp only [List.cons_append, Seg] at ih ⊢
      rw [ih]; simp only [and_assoc]

theorem seg_left {h : Heap α} (A B : List Pos) (hs : Seg h (A ++ B)) : Seg h A := by
  cases B with
  | nil => simpa using hs
  | cons b B =>
    have h1 := ((seg_mid A b B).1 hs).1
    rcases List.eq_nil_or_concat A with rfl | ⟨A', a, rfl⟩
    · trivial
    · rw [List.concat_eq_append, List.append_assoc] at h1
      rw [List.concat_eq_append]
      exact ((seg_mid A' a [b]).1 h1).1

theorem seg_right {h : Heap α} (A B : List Pos) (hs : Seg h (A ++ B)) : Seg h B := by
  cases B with
  | nil => trivial
  | cons b B => exact ((seg_mid A b B).1 hs).2

theorem seg_congr {h h' : Heap α} {l : List Pos} (hs : Seg h l) (hl : ∀ p ∈ l, h'.nxt p = h.nxt p ∧ h'.prv p = h.prv p) : Seg h' l := by
  induction l with
  | nil => trivial
  | cons a t ih =>
    cases t with
    | nil => trivial
    | cons b t =>
      simp only [Seg] at hs ⊢
      refine ⟨⟨?_, ?_⟩, ih hs.2 (fun p hp => hl p (by simp [hp]))⟩
      · rw [(hl a (by simp)).1]; exact hs.1.1
      · rw [(hl b (by simp)).2]; exact hs.1.2

theorem seg_setNext {h : Heap α} {l : List Pos} (hs : Seg h l) (x y : Pos) (hx : x ∉ l.dropLast) (hy : y ∉ l.tail) :
    Seg (h.setNext x y) l := by
  induction l with
  | nil => trivial
  | cons a t ih =>
    cases t with
    | nil => trivial
    | cons b t =>
      simp only [Seg] at hs ⊢
      simp only [List.dropLast, List.mem_cons, not_or, List.tail_cons] at hx hy
      refine ⟨⟨?_, ?_⟩, ih hs.2 (by simpa using hx.2) (by simpa using hy.2)⟩
      · simp only [Heap.setNext]; rw [upd_ne _ _ _ _ (Ne.symm hx.1)]; exact hs.1.1
      · simp only [Heap.setNext]; rw [upd_ne _ _ _ _ (Ne.symm hy.1)]; exact hs.1.2

theorem seg_frame {h : Heap α} {l : List Pos} (hs : Seg h l) (x y : Pos) (hx : x ∉ l) (hy : y ∉ l) : Seg (h.setNext x y) l :=
  seg_setNext hs x y (fun hh => hx (List.dropLast_subset _ hh)) (fun hh => hy (List.mem_of_mem_tail hh))

theorem seg_join {h : Heap α} {A B : List Pos} {p q : Pos} (h1 : Seg h (A ++ [p])) (h2 : Seg h (q :: B))
    (nd : (A ++ p :: q :: B).Nodup) : Seg (h.setNext p q) (A ++ p :: q :: B) := by
  have e : A ++ p :: q :: B = (A ++ [p]) ++ (q :: B) := by simp
  rw [e, List.nodup_append] at nd
  obtain ⟨n1, n2, n3⟩ := nd
  have np : p ∉ A := by
    rw [List.nodup_append] at n1
    intro hh; exact n1.2.2 p hh p (by simp) rfl
  rw [List.nodup_cons] at n2
  rw [seg_mid]
  refine ⟨seg_setNext h1 p q (by simpa using np) ?_, ?_⟩
  · intro hh; exact n3 q (List.mem_of_mem_tail hh) q (by simp) rfl
  · refine ⟨⟨by simp [Heap.setNext], by simp [Heap.setNext]⟩, seg_setNext h2 p q ?_ (by simpa using n2.1)⟩
    intro hh; exact n3 p (by simp) p (List.dropLast_subset _ hh) rfl

theorem seg_pair {h : Heap α} {A B : List Pos} {p q : Pos} (hs : Seg h (A ++ p :: q :: B)) : h.nxt p = q.1 ∧ h.prv q = p.1 :=
  ((seg_mid A p (q :: B)).1 hs).2.1

/-! ### a well-formed forest -/

/-- the whole traversal, from the root's leading to the root's trailing edge -/
def full (t : Nat) (F : Forest Nat) : List Pos := (t, true) :: (F.word ++ [(t, false)])

structure Valid (h : Heap α) (t : Nat) (F : Forest Nat) : Prop where
  seg : Seg h (full t F)
  wn : h.nxt (t, false) = t
  wp : h.prv (t, true) = t
  nd : (t :: F.pre).Nodup

theorem full_mem {t : Nat} {F : Forest Nat} {p : Pos} : p ∈ full t F ↔ p.1 ∈ t :: F.pre := by
  obtain ⟨n, e⟩ := p
  simp only [full, List.mem_cons, List.mem_append, mem_word, List.mem_singleton, Prod.mk.injEq]
  cases e <;> simp <;> tauto

theorem full_nodup {t : Nat} {F : Forest Nat} (h : (t :: F.pre).Nodup) : (full t F).Nodup := by
  rw [List.nodup_cons] at h
  simp only [full, List.nodup_cons, List.mem_append, mem_word, List.mem_singleton, Prod.mk.injEq, not_or, List.nodup_append]
  refine ⟨⟨h.1, by simp⟩, word_nodup h.2, ⟨by simp, List.nodup_nil⟩, ?_⟩
  rintro a ha b rfl rfl
  exact h.1 ha

/-! ### navigation -/

def Nav (h : Heap α) : List Pos → Prop
  | p :: q :: l => (h.inc p = q ∧ h.dec q = p) ∧ Nav h (q :: l)
  | _ => True

theorem nav_pair {h : Heap α} {A B : List Pos} {p q : Pos} (hn : Nav h (A ++ p :: q :: B)) : h.inc p = q ∧ h.dec q = p := by
  induction A with
  | nil => exact hn.1
  | cons a A ih =>
    cases A with
    | nil => exact ih hn.2
    | cons b A => exact ih hn.2

theorem nav_append {h : Heap α} {A : List Pos} {m : Pos} {B : List Pos} (h1 : Nav h (A ++ [m])) (h2 : Nav h (m :: B)) :
    Nav h (A ++ m :: B) := by
  induction A with
  | nil => exact h2
  | cons a A ih =>
    cases A with
    | nil => exact ⟨h1.1, h2⟩
    | cons b A => exact ⟨h1.1, ih h1.2⟩

theorem nav_of_seg {h : Heap α} (F : Forest Nat) (a : Pos) (z : Nat) (hs : Seg h (a :: (F.word ++ [(z, false)])))
    (ha : (a = (z, true) ∧ h.nxt (z, false) ∉ F.pre) ∨ (∃ y, a = (y, false) ∧ y ≠ z ∧ y ≠ h.prv (z, true)))
    (haF : a.1 ∉ F.pre) (hz : z ∉ F.pre) (nd : F.pre.Nodup) (hp : h.prv (z, true) ∉ F.pre) :
    Nav h (a :: (F.word ++ [(z, false)])) := by
  induction F generalizing a z with
  | nil =>
    simp only [word_nil, List.nil_append] at hs ⊢
    obtain ⟨⟨s1, s2⟩, _⟩ := hs
    refine ⟨?_, trivial⟩
    rcases ha with ⟨rfl, _⟩ | ⟨y, rfl, h1, h2⟩
    · simp only at s1 s2
      constructor
      · simp [Heap.inc, s1]
      · simp [Heap.dec, s2]
    · simp only at s1 s2
      constructor
      · simp [Heap.inc, s1, Ne.symm h2]
      · simp [Heap.dec, s2, h1]
  | cons n k r ihk ihr =>
    rw [pre_cons, List.nodup_cons, List.nodup_append] at nd
    obtain ⟨n1, n2, n3, n4⟩ := nd
    simp only [pre_cons, List.mem_cons, List.mem_append, not_or] at n1 haF hz hp
    have e : a :: ((cons n k r).word ++ [(z, false)]) = [a] ++ (n, true) :: (k.word ++ (n, false) :: (r.word ++ [(z, false)])) := by simp
    rw [e] at hs ⊢
    have e2 : (n, true) :: (k.word ++ (n, false) :: (r.word ++ [(z, false)])) = ((n, true) :: k.word) ++ (n, false) :: (r.word ++ [(z, false)]) := by simp
    have hs0 := ((seg_mid [a] (n, true) _).1 hs).1.1
    have hs1 := ((seg_mid [a] (n, true) _).1 hs).2
    rw [e2] at hs1
    have hsk := ((seg_mid ((n, true) :: k.word) (n, false) _).1 hs1).1
    have hsr := ((seg_mid ((n, true) :: k.word) (n, false) _).1 hs1).2
    have hnext : h.nxt (n, false) ∉ k.pre := by
      cases r with
      | nil =>
        have : h.nxt (n, false) = z := hsr.1.1
        rw [this]; exact hz.2.1
      | cons m k' r' =>
        have : h.nxt (n, false) = m := hsr.1.1
        rw [this]
        intro hh; exact n4 m hh m (by simp) rfl
    have hprev : h.prv (n, true) = a.1 := hs0.2
    refine nav_append (A := [a]) ⟨?_, trivial⟩ ?_
    · rcases ha with ⟨rfl, h1⟩ | ⟨y, rfl, h1, h2⟩
      · simp only at hs0 haF
        constructor
        · simp [Heap.inc, hs0.1, Ne.symm haF.1]
        · simp only [pre_cons, List.mem_cons, not_or] at h1
          simp [Heap.dec, hs0.2, h1.1]
      · simp only at hs0 haF
        constructor
        · simp [Heap.inc, hs0.1, hs0.2]
        · simp [Heap.dec, hs0.2, hs0.1]
    · rw [e2]
      refine nav_append ?_ ?_
      · exact ihk (n, true) n hsk (Or.inl ⟨rfl, hnext⟩) n1.1 n1.1 n2 (by rw [hprev]; exact haF.2.1)
      · exact ihr (n, false) z hsr (Or.inr ⟨n, rfl, Ne.symm hz.1, Ne.symm hp.1⟩) n1.2 hz.2.2 n3 hp.2.2

theorem Valid.nav {h : Heap α} {t : Nat} {F : Forest Nat} (v : Valid h t F) : Nav h (full t F) := by
  have nd := v.nd
  rw [List.nodup_cons] at nd
  exact nav_of_seg F (t, true) t v.seg (Or.inl ⟨rfl, by rw [v.wn]; exact nd.1⟩) nd.1 nd.1 nd.2 (by rw [v.wp]; exact nd.1)

theorem Valid.step {h : Heap α} {t : Nat} {F : Forest Nat} (v : Valid h t F) {A B : List Pos} {p q : Pos}
    (e : full t F = A ++ p :: q :: B) : h.inc p = q ∧ h.dec q = p := by
  have := v.nav
  rw [e] at this
  exact nav_pair this

theorem Valid.wrap {h : Heap α} {t : Nat} {F : Forest Nat} (v : Valid h t F) :
    h.inc (t, false) = (t, true) ∧ h.dec (t, true) = (t, false) := by
  constructor
  · simp [Heap.inc, v.wn, v.wp]
  · simp [Heap.dec, v.wn, v.wp]

/-! ### frames -/

theorem Valid.congr {h h' : Heap α} {t : Nat} {F : Forest Nat} (v : Valid h t F)
    (hl : ∀ p : Pos, p.1 ∈ t :: F.pre → h'.nxt p = h.nxt p ∧ h'.prv p = h.prv p) : Valid h' t F := by
  refine ⟨seg_congr v.seg (fun p hp => hl p (full_mem.1 hp)), ?_, ?_, v.nd⟩
  · rw [(hl _ (by simp)).1]; exact v.wn
  · rw [(hl _ (by simp)).2]; exact v.wp

theorem Valid.frame {h : Heap α} {t : Nat} {F : Forest Nat} (v : Valid h t F) (x y : Pos) (hx : x.1 ∉ t :: F.pre)
    (hy : y.1 ∉ t :: F.pre) : Valid (h.setNext x y) t F := by
  apply v.congr
  intro p hp
  simp only [Heap.setNext]
  refine ⟨upd_ne _ _ _ _ ?_, upd_ne _ _ _ _ ?_⟩
  · rintro rfl; exact hx hp
  · rintro rfl; exact hy hp

/-! ### places -/

/-- position of a hole -/
def at_ (t : Nat) (c : Ctx Nat) (g : Forest Nat) : Pos := firstOf (g.word ++ c.rw) (t, false)
/-- position before a hole -/
def before (t : Nat) (c : Ctx Nat) : Pos := lastOf (t, true) c.lw

theorem full_plug (t : Nat) (c : Ctx Nat) (g : Forest Nat) :
    full t (plug c g) = ((t, true) :: c.lw) ++ (g.word ++ (c.rw ++ [(t, false)])) := by
  simp [full, word_plug]

theorem lead_split (t : Nat) (c : Ctx Nat) : ∃ A, (t, true) :: c.lw = A ++ [before t c] := split_last _ _

theorem rest_split (t : Nat) (c : Ctx Nat) (g : Forest Nat) : ∃ B, g.word ++ (c.rw ++ [(t, false)]) = at_ t c g :: B := by
  rw [← List.append_assoc]; exact split_first _ _

theorem Valid.around {h : Heap α} {t : Nat} {c : Ctx Nat} {g : Forest Nat} (v : Valid h t (plug c g)) :
    h.dec (at_ t c g) = before t c ∧ h.inc (before t c) = at_ t c g := by
  obtain ⟨A, eA⟩ := lead_split t c
  obtain ⟨B, eB⟩ := rest_split t c g
  have := v.step (A := A) (B := B) (p := before t c) (q := at_ t c g) (by rw [full_plug, eA, eB]; simp)
  exact ⟨this.2, this.1⟩

theorem word_ends {g : Forest Nat} (hg : g ≠ nil) : ∃ n m, (∃ B, g.word = (n, true) :: B) ∧ (∃ A, g.word = A ++ [(m, false)]) ∧
    (∃ k r, g = cons n k r) := by
  cases g with
  | nil => exact absurd rfl hg
  | cons n k r =>
    have : ∃ A m, (cons n k r).word = A ++ [(m, false)] := by
      induction r generalizing n k with
      | nil => exact ⟨(n, true) :: k.word, n, by simp⟩
      | cons n' k' r' _ ih =>
        obtain ⟨A, m, e⟩ := ih n' k' (by simp)
        refine ⟨(n, true) :: (k.word ++ (n, false) :: A), m, ?_⟩
        rw [word_cons, e]; simp
    obtain ⟨A, m, e⟩ := this
    exact ⟨n, m, ⟨_, rfl⟩, ⟨A, e⟩, k, r, rfl⟩

theorem plug_nodup {c : Ctx Nat} {g : Forest Nat} {t : Nat} :
    (t :: (plug c g).pre).Nodup ↔ (t :: (c.ids ++ g.pre)).Nodup := ((pre_plug c g).cons t).nodup_iff

theorem mem_plug {c : Ctx Nat} {g : Forest Nat} {t n : Nat} :
    n ∈ t :: (plug c g).pre ↔ n = t ∨ n ∈ c.ids ∨ n ∈ g.pre := by
  rw [((pre_plug c g).cons t).mem_iff]; simp

/-- taking the trees `S` out of the traversal: `set_next(before, at)` -/
theorem Valid.cut {h : Heap α} {t : Nat} {c : Ctx Nat} {S R : Forest Nat} (v : Valid h t (plug c (append S R))) :
    Valid (h.setNext (before t c) (at_ t c R)) t (plug c R) ∧ Seg (h.setNext (before t c) (at_ t c R)) S.word := by
  obtain ⟨A, eA⟩ := lead_split t c
  obtain ⟨B, eB⟩ := rest_split t c R
  have hs := v.seg
  have hnd := full_nodup v.nd
  rw [full_plug, word_append, List.append_assoc] at hs hnd
  rw [eA, eB] at hs hnd
  have nd1 : (t :: (plug c R).pre).Nodup := by
    have := v.nd
    rw [plug_nodup] at this ⊢
    refine this.sublist (List.Sublist.cons_cons _ (List.Sublist.append_left ?_ _))
    simp
  have nd2 : (A ++ before t c :: at_ t c R :: B).Nodup := by
    have := full_nodup nd1
    rw [full_plug, eA, eB] at this
    simpa using this
  have hS : ∀ x ∈ (A ++ [before t c]) ++ (at_ t c R :: B), x ∉ S.word := by
    intro x hx hxS
    rw [List.nodup_append] at hnd
    obtain ⟨_, h2, h3⟩ := hnd
    rw [List.nodup_append] at h2
    simp only [List.mem_append] at hx
    rcases hx with hx | hx
    · exact h3 x (by simpa using hx) x (by simp [hxS]) rfl
    · exact h2.2.2 x hxS x hx rfl
  refine ⟨⟨?_, ?_, ?_, nd1⟩, ?_⟩
  · rw [full_plug, eA, eB]
    have := seg_join (seg_left _ _ hs) (seg_right _ _ (seg_right _ _ hs)) nd2
    simpa using this
  · simp only [Heap.setNext]
    rw [upd_ne]; exact v.wn
    intro hh
    rw [← hh] at nd2
    have he : ∃ B', at_ t c R :: B = B' ++ [(t, false)] := by
      rw [← eB, ← List.append_assoc]; exact ⟨_, rfl⟩
    obtain ⟨B', he⟩ := he
    rw [show A ++ (t, false) :: at_ t c R :: B = A ++ ((t, false) :: (at_ t c R :: B)) from rfl, he] at nd2
    have := (List.nodup_append.1 nd2).2.1
    simp at this
  · simp only [Heap.setNext]
    rw [upd_ne]; exact v.wp
    intro hh
    have he : ∃ A', A ++ [before t c] = (t, true) :: A' := ⟨_, eA.symm⟩
    obtain ⟨A', he⟩ := he
    have nd3 : ((t, true) :: (A' ++ at_ t c R :: B)).Nodup := by
      rw [← List.cons_append, ← he]; simpa using nd2
    rw [← hh] at nd3
    simp at nd3
  · apply seg_frame (seg_left _ _ (seg_right _ _ hs))
    · exact hS _ (by simp)
    · exact hS _ (by simp)

/-- inserting linked trees `S` into a hole: `set_next(before, first); set_next(back, at)` -/
theorem Valid.paste {h : Heap α} {t : Nat} {c : Ctx Nat} {S R : Forest Nat} (v : Valid h t (plug c R)) (hS : Seg h S.word)
    {n m : Nat} {SA SB : List Pos} (e1 : S.word = (n, true) :: SB) (e2 : S.word = SA ++ [(m, false)])
    (nd : (t :: (plug c (append S R)).pre).Nodup) :
    Valid ((h.setNext (before t c) (n, true)).setNext (m, false) (at_ t c R)) t (plug c (append S R)) := by
  obtain ⟨A, eA⟩ := lead_split t c
  obtain ⟨B, eB⟩ := rest_split t c R
  have hs := v.seg
  rw [full_plug] at hs
  rw [eA, eB] at hs
  have hnd := full_nodup nd
  rw [full_plug, word_append, List.append_assoc, eA, eB] at hnd
  have hR := seg_right _ _ hs
  have hL := seg_left _ _ hs
  -- first join
  have nd1 : (A ++ before t c :: (n, true) :: SB).Nodup := by
    have : (A ++ [before t c] ++ S.word).Nodup := by
      refine hnd.sublist (List.Sublist.append_left ?_ _)
      simp
    rw [e1] at this; simpa using this
  have j1 := seg_join hL (by rw [← e1]; exact hS) nd1
  have disj := (List.nodup_append.1 hnd)
  have disj2 := (List.nodup_append.1 disj.2.1)
  have hR1 : Seg (h.setNext (before t c) (n, true)) (at_ t c R :: B) := by
    apply seg_frame hR
    · intro hh; exact disj.2.2 _ (by simp) _ (List.mem_append.2 (Or.inr hh)) rfl
    · intro hh; exact disj2.2.2 (n, true) (by rw [e1]; simp) _ hh rfl
  have e3 : A ++ before t c :: (n, true) :: SB = (A ++ before t c :: SA) ++ [(m, false)] := by
    rw [← e1, e2]; simp
  rw [e3] at j1
  have j2 := seg_join j1 hR1 (by
    have : A ++ [before t c] ++ (S.word ++ at_ t c R :: B) = A ++ before t c :: SA ++ (m, false) :: at_ t c R :: B := by
      rw [e2]; simp
    rw [← this]; exact hnd)
  refine ⟨?_, ?_, ?_, nd⟩
  · rw [full_plug, word_append, List.append_assoc, eA, eB, e2]
    simpa using j2
  · simp only [Heap.setNext]
    have hlast : (t, false) ∈ at_ t c R :: B := by rw [← eB]; simp
    rw [upd_ne, upd_ne]
    · exact v.wn
    · intro hh
      exact disj.2.2 (before t c) (by simp) (t, false) (List.mem_append.2 (Or.inr hlast)) hh.symm
    · intro hh
      exact disj2.2.2 (m, false) (by rw [e2]; simp) (t, false) hlast hh.symm
  · simp only [Heap.setNext]
    have hfst : (t, true) ∈ A ++ [before t c] := by rw [← eA]; simp
    rw [upd_ne, upd_ne]
    · exact v.wp
    · intro hh
      exact disj.2.2 (t, true) hfst (n, true) (List.mem_append.2 (Or.inl (by rw [e1]; simp))) hh
    · intro hh
      exact disj.2.2 (t, true) hfst (at_ t c R) (List.mem_append.2 (Or.inr (by simp))) hh

end Verif.Forest

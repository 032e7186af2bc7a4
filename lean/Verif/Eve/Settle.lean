import Verif.Eve.Run
/-! When the solver has settled: every view is a fixed point of the passes. -/
namespace Verif.Eve
namespace Tree
variable {α : Type}

section
variable {f : α → List α → Except Err (α × List α × Bool)}
    (hf : ∀ a ks a' ks', f a ks = .ok (a', ks', false) → a' = a ∧ ks' = ks)
include hf

theorem pres_fix : ∀ (n : Nat) (ts : List (Tree α)) (ts' : List (Tree α)), count.counts ts ≤ n →
    pre.pres f ts (roots ts) = .ok (ts', false) →
    ts' = ts ∧ Forall.Foralls (fun a ks => f a ks = .ok (a, ks, false)) ts
  | n, [], ts', _, h => by
    simp only [pres_nil, pres_false, pres_true, Except.ok.injEq, Prod.mk.injEq] at h
    rw [← h.1]; simp [Forall.Foralls]
  | n, .node false a ks :: ts, ts', hn, h => by
    obtain ⟨us, h1, rfl⟩ := pres_false_ok h
    simp only [count.counts, count] at hn
    cases n with
    | zero => omega
    | succ n =>
      obtain ⟨rfl, a2⟩ := pres_fix n ts us (by omega) (by simpa [roots, visible] using h1)
      exact ⟨rfl, by simp only [Forall.Foralls, Forall]; exact ⟨trivial, a2⟩⟩
  | n, .node true a ks :: ts, ts', hn, h => by
    simp only [roots, visible, if_true, root] at h
    obtain ⟨t', b1, us, b2, h1, h2, rfl, hb⟩ := pres_true_ok h
    simp only [List.headD_cons, List.tail_cons] at h1 h2
    obtain ⟨a', as', c1, ks', c2, e1, e2, rfl, rfl⟩ := pre_node_ok h1
    simp only [count.counts, count] at hn
    rw [eq_comm, Bool.or_eq_false_iff, Bool.or_eq_false_iff] at hb
    obtain ⟨⟨rfl, rfl⟩, rfl⟩ := hb
    obtain ⟨rfl, rfl⟩ := hf _ _ _ _ e1
    cases n with
    | zero => omega
    | succ n =>
      obtain ⟨rfl, a2⟩ := pres_fix n ks ks' (by omega) e2
      obtain ⟨rfl, d2⟩ := pres_fix n ts us (by omega) h2
      refine ⟨rfl, ?_⟩
      simp only [Forall.Foralls, Forall_node]
      exact ⟨⟨e1, a2⟩, d2⟩

theorem pre_fix {t t' : Tree α} (h : pre f t = .ok (t', false)) :
    t' = t ∧ t.Forall (fun a ks => f a ks = .ok (a, ks, false)) := by
  match t, h with
  | .node false a ks, h =>
    simp only [pre_false, pre_true, Except.ok.injEq, Prod.mk.injEq] at h
    exact ⟨h.1.symm, by simp [Forall]⟩
  | .node true a ks, h =>
    obtain ⟨a', as', c1, ks', c2, e1, e2, rfl, hb⟩ := pre_node_ok h
    rw [eq_comm, Bool.or_eq_false_iff] at hb
    obtain ⟨rfl, rfl⟩ := hb
    obtain ⟨rfl, rfl⟩ := hf _ _ _ _ e1
    obtain ⟨rfl, a2⟩ := pres_fix hf _ ks ks' (Nat.le_refl _) e2
    exact ⟨rfl, by rw [Forall_node]; exact ⟨e1, a2⟩⟩
end

mutual
theorem post_fix {f : α → List α → Except Err (α × List α)} : ∀ (t : Tree α),
    t.Forall (fun a ks => f a ks = .ok (a, ks)) → post f t = .ok t
  | .node false a ks, _ => by simp [post]
  | .node true a ks, h => by
    rw [Forall_node] at h
    simp only [post, posts_fix ks h.2, bind, Except.bind, h.1, setRoots_roots]
theorem posts_fix {f : α → List α → Except Err (α × List α)} : ∀ (ts : List (Tree α)),
    Forall.Foralls (fun a ks => f a ks = .ok (a, ks)) ts → post.posts f ts = .ok ts
  | [], _ => by simp [post.posts]
  | t :: ts, h => by
    simp only [Forall.Foralls] at h
    simp only [post.posts, post_fix t h.1, posts_fix ts h.2, bind, Except.bind]
end

end Tree

/-! ### solve_up is idempotent -/

theorem raise_again : ∀ {gs base x y : List Int} {off : Int}, raise off gs base = .ok (x, y) →
    ∀ z, raise off gs (x ++ z) = .ok (x, z)
  | [], base, x, y, off, h, z => by
    obtain ⟨rfl, rfl⟩ := raise_nil h; simp [raise]
  | g :: gs, base, x, y, off, h, z => by
    obtain ⟨b, base', x', rfl, rfl, h'⟩ := raise_cons h
    simp only [List.cons_append, raise, raise_again h' z, bind, Except.bind]
    rw [show max (max b (g + off)) (g + off) = max b (g + off) by omega]

theorem upFwd_again : ∀ {cs : List Item} {len l : Int} {rest gs : List Int},
    upFwd len rest cs = .ok (l, gs) → upFwd len gs cs = .ok (l, gs)
  | [], len, l, rest, gs, h => by
    simp only [upFwd, Except.ok.injEq, Prod.mk.injEq] at h ⊢
    exact ⟨h.1, trivial⟩
  | c :: cs, len, l, rest, gs, h => by
    rcases upFwd_cons h with ⟨hu, x, rest', gs', h1, h2, rfl⟩ | ⟨hu, h2⟩
    · simp only [upFwd, hu, if_true, raise_again h1 gs', bind, Except.bind, upFwd_again h2]
    · simp only [upFwd, hu, Bool.false_eq_true, if_false]
      exact upFwd_again h2

theorem upRev_again : ∀ {cs : List Item} {rlen add l : Int} {rest gs : List Int},
    upRev rlen add rest cs = .ok (l, gs) → upRev rlen add gs cs = .ok (l, gs)
  | [], rlen, add, l, rest, gs, h => by
    simp only [upRev, Except.ok.injEq, Prod.mk.injEq] at h ⊢
    exact ⟨h.1, trivial⟩
  | c :: cs, rlen, add, l, rest, gs, h => by
    rcases upRev_cons h with ⟨hu, x, rest', gs', h1, h2, rfl⟩ | ⟨hu, h2⟩
    · simp only [upRev, hu, if_true, raise_again h1 gs', bind, Except.bind, upRev_again h2]
    · simp only [upRev, hu, Bool.false_eq_true, if_false]
      exact upRev_again h2

/-- The guides `gs`, moved by `off`, are not beyond those of the container. -/
def Dom (off : Int) : List Int → List Int → Prop
  | [], _ => True
  | _ :: _, [] => False
  | g :: gs, b :: bs => g + off ≤ b ∧ Dom off gs bs

theorem raise_dom : ∀ {gs base x y : List Int} {off : Int}, raise off gs base = .ok (x, y) → Dom off gs (x ++ y)
  | [], base, x, y, off, h => by simp [Dom]
  | g :: gs, base, x, y, off, h => by
    obtain ⟨b, base', x', rfl, rfl, h'⟩ := raise_cons h
    exact ⟨by omega, raise_dom h'⟩

theorem raise_keeps_dom : ∀ {gs base x y : List Int} {off : Int}, raise off gs base = .ok (x, y) →
    ∀ {hs : List Int} {o : Int}, Dom o hs base → Dom o hs (x ++ y)
  | [], base, x, y, off, h, hs, o, hd => by
    obtain ⟨rfl, rfl⟩ := raise_nil h; exact hd
  | g :: gs, base, x, y, off, h, hs, o, hd => by
    obtain ⟨b, base', x', rfl, rfl, h'⟩ := raise_cons h
    cases hs with
    | nil => trivial
    | cons k ks =>
      exact ⟨by have := hd.1; omega, raise_keeps_dom h' hd.2⟩

theorem dom_raise : ∀ {gs base : List Int} {off : Int}, Dom off gs base →
    ∃ x y, raise off gs base = .ok (x, y) ∧ x ++ y = base
  | [], base, off, _ => ⟨[], base, rfl, rfl⟩
  | g :: gs, [], off, h => h.elim
  | g :: gs, b :: bs, off, h => by
    obtain ⟨x, y, h1, h2⟩ := dom_raise h.2
    refine ⟨b :: x, y, ?_, by simp [h2]⟩
    simp only [raise, h1, bind, Except.bind]
    rw [show max b (g + off) = b by have := h.1; omega]

theorem raiseChild_dom {u : Bool} {off : Int} {cg gs f : List Int} (h : raiseChild u off cg gs = .ok f) :
    (u = true → Dom off cg f) ∧ ∀ {hs : List Int} {o : Int}, Dom o hs gs → Dom o hs f := by
  unfold raiseChild at h
  split at h
  · obtain ⟨⟨x, y⟩, h1, h2⟩ := ok_bind h
    simp only [Except.ok.injEq] at h2
    subst h2
    exact ⟨fun _ => raise_dom h1, fun hd => raise_keeps_dom h1 hd⟩
  · rename_i hu
    simp only [Except.ok.injEq] at h
    subst h
    exact ⟨fun h => absurd h hu, fun hd => hd⟩

theorem crossGuides_dom {near far : Int} : ∀ {cs : List Item} {fwd rev fwd' rev' : List Int},
    crossGuides near far cs fwd rev = .ok (fwd', rev') →
    (∀ c ∈ cs, (c.usesFwd = true → Dom (near + c.fwdIndent) c.fwd fwd') ∧
      (c.usesRev = true → Dom (far + c.revIndent) c.rev rev')) ∧
    (∀ {hs : List Int} {o : Int}, Dom o hs fwd → Dom o hs fwd') ∧
    (∀ {hs : List Int} {o : Int}, Dom o hs rev → Dom o hs rev')
  | [], fwd, rev, fwd', rev', h => by
    simp only [crossGuides, Except.ok.injEq, Prod.mk.injEq] at h
    obtain ⟨rfl, rfl⟩ := h
    exact ⟨by simp, fun h => h, fun h => h⟩
  | d :: cs, fwd, rev, fwd', rev', h => by
    simp only [crossGuides] at h
    obtain ⟨f, h1, h⟩ := ok_bind h
    obtain ⟨r, h2, h⟩ := ok_bind h
    obtain ⟨k1, k2, k3⟩ := crossGuides_dom h
    obtain ⟨f1, f2⟩ := raiseChild_dom h1
    obtain ⟨r1, r2⟩ := raiseChild_dom h2
    refine ⟨?_, fun hd => k2 (f2 hd), fun hd => k3 (r2 hd)⟩
    intro c hc
    rcases List.mem_cons.1 hc with rfl | hc
    · exact ⟨fun hu => k2 (f1 hu), fun hu => k3 (r1 hu)⟩
    · exact k1 c hc

theorem crossGuides_fix {near far : Int} : ∀ {cs : List Item} {fwd rev : List Int},
    (∀ c ∈ cs, (c.usesFwd = true → Dom (near + c.fwdIndent) c.fwd fwd) ∧
      (c.usesRev = true → Dom (far + c.revIndent) c.rev rev)) →
    crossGuides near far cs fwd rev = .ok (fwd, rev)
  | [], fwd, rev, _ => rfl
  | c :: cs, fwd, rev, h => by
    have hr : ∀ (u : Bool) (off : Int) (cg gs : List Int), (u = true → Dom off cg gs) →
        raiseChild u off cg gs = .ok gs := by
      intro u off cg gs hd
      unfold raiseChild
      split
      · obtain ⟨x, y, h1, h2⟩ := dom_raise (hd (by assumption))
        simp only [h1, bind, Except.bind, h2]
      · rfl
    have hc := h c (by simp)
    simp only [crossGuides, hr _ _ _ _ hc.1, hr _ _ _ _ hc.2, bind, Except.bind]
    exact crossGuides_fix (fun d hd => h d (by simp [hd]))

theorem upStep_again {s : Slice} {p p' : Item} {kids kids' : List Item} (hb : p.balance = false)
    (h : upStep s p kids = .ok (p', kids')) : upStep s p' kids = .ok (p', kids) := by
  unfold upStep at h ⊢
  split at h
  · rename_i hl
    simp only [Except.ok.injEq, Prod.mk.injEq] at h
    obtain ⟨rfl, rfl⟩ := h
    rw [if_pos hl]
  · rename_i hl
    obtain ⟨q, h1, h2⟩ := ok_bind h
    simp only [Except.ok.injEq, Prod.mk.injEq] at h2
    obtain ⟨rfl, rfl⟩ := h2
    unfold upBoth at h1 ⊢
    split at h1
    · rename_i hw
      unfold upWith at h1
      obtain ⟨⟨add, rev⟩, h2, h1⟩ := ok_bind h1
      obtain ⟨⟨len, fwd⟩, h3, h1⟩ := ok_bind h1
      simp only [Except.ok.injEq] at h1
      rw [hb, balanced_false] at h1
      subst h1
      rw [if_neg (by exact hl)]
      simp only [hw, if_true, upWith]
      simp only [Item.near, Item.far] at h2 h3 ⊢
      simp only [upRev_again h2, upFwd_again h3, bind, Except.bind, hb, balanced_false]
      rw [show max (len + add) (max (len + add) p.clength) = max (len + add) p.clength by omega]
    · rename_i hw
      unfold upCross at h1
      obtain ⟨⟨fwd, rev⟩, h2, h1⟩ := ok_bind h1
      obtain ⟨len, h3, h1⟩ := ok_bind h1
      simp only [Except.ok.injEq] at h1
      subst h1
      rw [if_neg (by exact hl)]
      simp only [hw, upCross]
      have h4 := crossGuides_fix (crossGuides_dom h2).1
      simp only [Item.near, Item.far] at h3 h4 ⊢
      simp only [h4, h3, bind, Except.bind]
      rw [if_neg (by simp)]
      simp only [h4, h3, bind, Except.bind]
      rw [show max len (max len p.clength) = max len p.clength by omega]

/-! ### solve_down without progress -/

theorem impose_same : ∀ {gs base x y : List Int} {off : Int},
    impose off gs base = .ok (x, y, false) → x = gs ∧ base = gs.map (· + off) ++ y
  | [], base, x, y, off, h => by
    simp only [impose, Except.ok.injEq, Prod.mk.injEq] at h
    rw [← h.1, ← h.2.1]; simp
  | g :: gs, [], x, y, off, h => by simp [impose] at h
  | g :: gs, b :: base, x, y, off, h => by
    simp only [impose] at h
    obtain ⟨⟨x', y', ch'⟩, h1, h2⟩ := ok_bind h
    simp only [Except.ok.injEq, Prod.mk.injEq, Bool.or_eq_false_iff, bne_eq_false_iff_eq] at h2
    obtain ⟨rfl, rfl, h3, rfl⟩ := h2
    obtain ⟨rfl, rfl⟩ := impose_same h1
    exact ⟨by rw [h3], by simp; omega⟩

/-- Without a change, the guides of the container are those of the child, at the offset of the child. -/
theorem imposeChild_same {c : Item} {off off' : Int} {cg gs x y : List Int}
    (h : imposeChild c off cg gs = .ok (off', x, y, false)) :
    x = cg ∧ gs = cg.map (· + off') ++ y ∧ ((c.leaf = false ∨ cg = []) → off' = off) := by
  unfold imposeChild at h
  cases cg with
  | nil =>
    simp only [Except.ok.injEq, Prod.mk.injEq] at h
    obtain ⟨rfl, rfl, rfl, _⟩ := h
    simp
  | cons g cg =>
    simp only at h
    split at h
    · rename_i hl
      cases gs with
      | nil => simp at h
      | cons b gs =>
        obtain ⟨⟨a1, b1, c1⟩, h1, h2⟩ := ok_bind h
        simp only [Except.ok.injEq, Prod.mk.injEq] at h2
        obtain ⟨rfl, rfl, rfl, rfl⟩ := h2
        obtain ⟨rfl, rfl⟩ := impose_same h1
        refine ⟨rfl, by simp; omega, ?_⟩
        rintro (h | h)
        · rw [h] at hl; cases hl
        · cases h
    · obtain ⟨⟨a1, b1, c1⟩, h1, h2⟩ := ok_bind h
      simp only [Except.ok.injEq, Prod.mk.injEq] at h2
      obtain ⟨rfl, rfl, rfl, rfl⟩ := h2
      obtain ⟨rfl, h4⟩ := impose_same h1
      exact ⟨rfl, h4, fun _ => rfl⟩

theorem downFwd_cons {len : Int} {rest : List Int} {c : Item} {cs cs' : List Item}
    (h : downFwd len rest (c :: cs) = .ok (cs', false)) :
    ∃ ds, (c.usesFwd = true ∧ ∃ len' rest', imposeChild c (len + c.space) c.fwd rest = .ok (len', c.fwd, rest', false) ∧
        downFwd (len' + c.clength) rest' cs = .ok (ds, false) ∧ cs' = c :: ds) ∨
      (c.usesFwd = false ∧ downFwd (len + c.space + c.clength) rest cs = .ok (ds, false) ∧ cs' = c :: ds) := by
  simp only [downFwd] at h
  split at h
  · rename_i hu
    obtain ⟨⟨len', gs, rest', ch1⟩, h1, h⟩ := ok_bind h
    dsimp only at h
    split at h
    · simp at h
    · rename_i hch
      have hch' : ch1 = false := by simpa using hch
      subst hch'
      obtain ⟨⟨cs1, ch2⟩, h2, h⟩ := ok_bind h
      simp only [Except.ok.injEq, Prod.mk.injEq] at h
      obtain ⟨rfl, rfl⟩ := h
      obtain ⟨e, _, _⟩ := imposeChild_same h1
      subst e
      exact ⟨cs1, Or.inl ⟨hu, len', rest', h1, h2, rfl⟩⟩
  · rename_i hu
    obtain ⟨⟨cs1, ch2⟩, h2, h⟩ := ok_bind h
    simp only [Except.ok.injEq, Prod.mk.injEq] at h
    obtain ⟨rfl, rfl⟩ := h
    exact ⟨cs1, Or.inr ⟨by simpa using hu, h2, rfl⟩⟩

theorem downFwd_same : ∀ {cs cs' : List Item} {len : Int} {rest : List Int},
    downFwd len rest cs = .ok (cs', false) → cs' = cs
  | [], cs', _, _, h => by
    simp only [downFwd, Except.ok.injEq, Prod.mk.injEq] at h
    exact h.1.symm
  | c :: cs, cs', len, rest, h => by
    obtain ⟨ds, ⟨_, len', rest', _, h2, rfl⟩ | ⟨_, h2, rfl⟩⟩ := downFwd_cons h
    · rw [downFwd_same h2]
    · rw [downFwd_same h2]

theorem downCrossOne_same {p c c' : Item} (h : downCrossOne p c = .ok (c', false)) :
    c' = c ∧
    (c.usesFwd = true → ∃ off y, imposeChild c (p.near + c.fwdIndent) c.fwd p.fwd = .ok (off, c.fwd, y, false)) ∧
    (c.usesRev = true → ∃ off y, imposeChild c (p.far + c.revIndent) c.rev p.rev = .ok (off, c.rev, y, false)) := by
  have key : ∀ {u : Bool} {off : Int} {cg gs x : List Int}, imposeUse c u off cg gs = .ok (x, false) →
      x = cg ∧ (u = true → ∃ off' y, imposeChild c off cg gs = .ok (off', cg, y, false)) := by
    intro u off cg gs x h
    unfold imposeUse at h
    split at h
    · obtain ⟨⟨a1, b1, c1, d1⟩, h1, h2⟩ := ok_bind h
      simp only [Except.ok.injEq, Prod.mk.injEq] at h2
      obtain ⟨rfl, rfl⟩ := h2
      obtain ⟨rfl, _, _⟩ := imposeChild_same h1
      exact ⟨rfl, fun _ => ⟨a1, c1, h1⟩⟩
    · rename_i hu
      simp only [Except.ok.injEq, Prod.mk.injEq] at h
      exact ⟨h.1.symm, fun h => absurd h hu⟩
  unfold downCrossOne at h
  obtain ⟨⟨f, cf⟩, h1, h⟩ := ok_bind h
  obtain ⟨⟨r, cr⟩, h2, h⟩ := ok_bind h
  simp only [Except.ok.injEq, Prod.mk.injEq, Bool.or_eq_false_iff] at h
  obtain ⟨rfl, rfl, rfl⟩ := h
  obtain ⟨rfl, k1⟩ := key h1
  obtain ⟨rfl, k2⟩ := key h2
  exact ⟨rfl, k1, k2⟩

theorem downCross_cons {p c : Item} {cs cs' : List Item} (h : downCross p (c :: cs) = .ok (cs', false)) :
    ∃ d ds, downCrossOne p c = .ok (d, false) ∧ downCross p cs = .ok (ds, false) ∧ cs' = d :: ds := by
  simp only [downCross] at h
  obtain ⟨⟨c1, ch1⟩, h1, h⟩ := ok_bind h
  obtain ⟨⟨cs1, ch2⟩, h2, h⟩ := ok_bind h
  simp only [Except.ok.injEq, Prod.mk.injEq, Bool.or_eq_false_iff] at h
  obtain ⟨rfl, rfl, rfl⟩ := h
  exact ⟨c1, cs1, h1, h2, rfl⟩

theorem downCross_same {p : Item} : ∀ {cs cs' : List Item}, downCross p cs = .ok (cs', false) →
    cs' = cs ∧ ∀ c ∈ cs, downCrossOne p c = .ok (c, false)
  | [], cs', h => by
    simp only [downCross, Except.ok.injEq, Prod.mk.injEq] at h
    exact ⟨h.1.symm, by simp⟩
  | c :: cs, cs', h => by
    obtain ⟨d, ds, h1, h2, rfl⟩ := downCross_cons h
    obtain ⟨rfl, k⟩ := downCross_same h2
    obtain ⟨rfl, _⟩ := downCrossOne_same h1
    refine ⟨rfl, ?_⟩
    intro e he
    rcases List.mem_cons.1 he with rfl | he
    · exact h1
    · exact k e he

theorem downWith_same {p : Item} {ks ks' : List Item} (h : downWith p ks = .ok (ks', false)) :
    downFwd p.near p.fwd ks = .ok (ks', false) ∧ ks' = ks := by
  unfold downWith at h
  obtain ⟨⟨ks1, ch1⟩, h2, h3⟩ := ok_bind h
  dsimp only at h3
  split at h3
  · simp at h3
  · exact ⟨h3, downFwd_same h3⟩

theorem downStep_same {s : Slice} {a a' : Item} {ks ks' : List Item}
    (h : downStep s a ks = .ok (a', ks', false)) : a' = a ∧ ks' = ks := by
  unfold downStep at h
  split at h
  · simp only [Except.ok.injEq, Prod.mk.injEq] at h
    exact ⟨h.1.symm, h.2.1.symm⟩
  · obtain ⟨⟨ks1, ch⟩, h1, h2⟩ := ok_bind h
    simp only [Except.ok.injEq, Prod.mk.injEq] at h2
    obtain ⟨rfl, rfl, rfl⟩ := h2
    refine ⟨rfl, ?_⟩
    unfold downBoth at h1
    split at h1
    · exact (downWith_same h1).2
    · exact (downCross_same h1).1

/-- Nothing left to do for the solver. -/
def Settled (s : Slice) (p : Item) (kids : List Item) : Prop :=
  upStep s p kids = .ok (p, kids) ∧ downStep s p kids = .ok (p, kids, false)

def Unbalanced (p : Item) (_ : List Item) : Prop := p.balance = false

theorem Unbalanced_stable : GrowStable Unbalanced := by
  intro a ks a' ks' h hg _
  unfold Unbalanced at *
  rw [← attr_balance hg.attr]; exact h

theorem post_up_fixed {s : Slice} {t t' : Tree Item} (h : t.post (upStep s) = .ok t') (hp : t.Forall Unbalanced) :
    t'.Forall (fun a ks => Unbalanced a ks ∧ upStep s a ks = .ok (a, ks)) := by
  obtain ⟨_, h2⟩ := Tree.post_self (f := upStep s) (fun a ks a' ks' e => (upStep_ok e).1) (R := Grows)
    (fun a ks a' ks' e => (upStep_ok e).2.1) Unbalanced_stable h hp
  refine h2.imp ?_
  rintro a ks ⟨hp, a0, hr, e⟩
  exact ⟨hp, upStep_again (by unfold Unbalanced at hp; rw [attr_balance hr.attr]; exact hp) e⟩

theorem solveLoop_settled {s : Slice} : ∀ (n : Nat) {t t' : Tree Item},
    t.Forall (fun a ks => Unbalanced a ks ∧ upStep s a ks = .ok (a, ks)) →
    solveLoop s n t = .ok (t', true) → t'.Forall (Settled s)
  | 0, t, t', _, h => by simp [solveLoop] at h
  | n + 1, t, t', hp, h => by
    simp only [solveLoop] at h
    obtain ⟨⟨t1, pr⟩, h1, h⟩ := ok_bind h
    obtain ⟨t2, h2, h⟩ := ok_bind h
    dsimp only at h2 h
    cases pr with
    | true =>
      simp only [if_true] at h
      have hu := (pre_down Unbalanced_stable h1 (hp.imp (fun _ _ h => h.1))).2
      exact solveLoop_settled n (post_up_fixed h2 hu) h
    | false =>
      simp only [Bool.false_eq_true, if_false, Except.ok.injEq, Prod.mk.injEq] at h
      have h' := h
      clear h
      obtain ⟨rfl, hd⟩ := Tree.pre_fix (fun a ks a' ks' e => downStep_same e) h1
      rw [Tree.post_fix _ (hp.imp (fun _ _ h => h.2))] at h2
      simp only [Except.ok.injEq] at h2
      rw [← h'.1, ← h2]
      exact (hp.and hd).imp (fun _ _ h => ⟨h.1.2, h.2⟩)

theorem solve_settled {s : Slice} {t t' : Tree Item} (hp : t.Forall Unbalanced) (h : solve s t = .ok (t', true)) :
    t'.Forall (Settled s) := by
  unfold solve at h
  obtain ⟨t1, h1, h⟩ := ok_bind h
  exact solveLoop_settled _ (post_up_fixed h1 hp) h

end Verif.Eve

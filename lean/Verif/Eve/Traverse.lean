import Verif.Eve.Model
import Mathlib.Data.List.Forall2
/-! Facts about the traversals of a tree of views. -/
namespace Verif.Eve
namespace Tree
variable {α : Type}

/-- Every visible view below visible views satisfies `P`, together with its visible children. -/
def Forall (P : α → List α → Prop) : Tree α → Prop
  | .node false _ _ => True
  | .node true a ks => P a (roots ks) ∧ Foralls ks
where
  Foralls : List (Tree α) → Prop
    | [] => True
    | t :: ts => Forall P t ∧ Foralls ts

theorem Forall_node (P : α → List α → Prop) (a : α) (ks : List (Tree α)) :
    Forall P (.node true a ks) ↔ P a (roots ks) ∧ Forall.Foralls P ks := by
  simp only [Forall]

mutual
theorem Forall.imp' {P P' : α → List α → Prop} (h : ∀ a ks, P a ks → P' a ks) :
    ∀ t : Tree α, t.Forall P → t.Forall P'
  | .node false _ _, _ => by simp [Forall]
  | .node true a ks, ht => by
    simp only [Forall] at ht ⊢
    exact ⟨h _ _ ht.1, Foralls_imp h ks ht.2⟩
theorem Foralls_imp {P P' : α → List α → Prop} (h : ∀ a ks, P a ks → P' a ks) :
    ∀ ts : List (Tree α), Forall.Foralls P ts → Forall.Foralls P' ts
  | [], _ => by simp [Forall.Foralls]
  | t :: ts, ht => by
    simp only [Forall.Foralls] at ht ⊢
    exact ⟨Forall.imp' h t ht.1, Foralls_imp h ts ht.2⟩
end

mutual
theorem Forall.and' {P P' : α → List α → Prop} :
    ∀ t : Tree α, t.Forall P → t.Forall P' → t.Forall (fun a ks => P a ks ∧ P' a ks)
  | .node false _ _, _, _ => by simp [Forall]
  | .node true a ks, ht, ht' => by
    simp only [Forall] at ht ht' ⊢
    exact ⟨⟨ht.1, ht'.1⟩, Foralls_and ks ht.2 ht'.2⟩
theorem Foralls_and {P P' : α → List α → Prop} :
    ∀ ts : List (Tree α), Forall.Foralls P ts → Forall.Foralls P' ts →
      Forall.Foralls (fun a ks => P a ks ∧ P' a ks) ts
  | [], _, _ => by simp [Forall.Foralls]
  | t :: ts, ht, ht' => by
    simp only [Forall.Foralls] at ht ht' ⊢
    exact ⟨Forall.and' t ht.1 ht'.1, Foralls_and ts ht.2 ht'.2⟩
end

theorem Forall.imp {P P' : α → List α → Prop} {t : Tree α} (ht : t.Forall P)
    (h : ∀ a ks, P a ks → P' a ks) : t.Forall P' := Forall.imp' h t ht

theorem Forall.and {P P' : α → List α → Prop} {t : Tree α} (ht : t.Forall P) (ht' : t.Forall P') :
    t.Forall (fun a ks => P a ks ∧ P' a ks) := Forall.and' t ht ht'

@[simp] theorem roots_setRoots : ∀ (ts : List (Tree α)) (as : List α), as.length = (roots ts).length →
    roots (setRoots ts as) = as
  | [], as, h => by
    simp [roots, setRoots] at *; exact h
  | .node true a ks :: ts, as, h => by
    cases as with
    | nil => simp [roots, visible] at h
    | cons b bs =>
      have := roots_setRoots ts bs (by simpa [roots, visible] using h)
      simp [roots, setRoots, visible, setRoot, root, this]
  | .node false a ks :: ts, as, h => by
    have := roots_setRoots ts as (by simpa [roots, visible] using h)
    simp [roots, setRoots, visible, this]

theorem setRoots_roots : ∀ (ts : List (Tree α)), setRoots ts (roots ts) = ts
  | [] => by simp [roots, setRoots]
  | .node true a ks :: ts => by
    have := setRoots_roots ts
    simp [roots, setRoots, visible, root, setRoot, kids, this]
  | .node false a ks :: ts => by
    have := setRoots_roots ts
    simp [roots, setRoots, visible, this]

/-- A member function that changes the view only. -/
def SelfOnly (f : α → List α → Except Err (α × List α)) : Prop :=
  ∀ a ks a' ks', f a ks = .ok (a', ks') → ks' = ks

theorem post_node_ok {f : α → List α → Except Err (α × List α)} {a : α} {ks : List (Tree α)} {t' : Tree α}
    (h : post f (.node true a ks) = .ok t') :
    ∃ ks' a' as', post.posts f ks = .ok ks' ∧ f a (roots ks') = .ok (a', as') ∧
      t' = .node true a' (setRoots ks' as') := by
  simp only [post] at h
  cases h1 : post.posts f ks with
  | error e => rw [h1] at h; simp [bind, Except.bind] at h
  | ok ks' =>
    rw [h1] at h
    simp only [bind, Except.bind] at h
    cases h2 : f a (roots ks') with
    | error e => rw [h2] at h; simp at h
    | ok r =>
      rw [h2] at h
      simp only [Except.ok.injEq] at h
      exact ⟨ks', r.1, r.2, rfl, h2, h.symm⟩

theorem posts_cons_ok {f : α → List α → Except Err (α × List α)} {t : Tree α} {ts ts' : List (Tree α)}
    (h : post.posts f (t :: ts) = .ok ts') :
    ∃ u us, post f t = .ok u ∧ post.posts f ts = .ok us ∧ ts' = u :: us := by
  simp only [post.posts] at h
  cases h1 : post f t with
  | error e => rw [h1] at h; simp [bind, Except.bind] at h
  | ok u =>
    rw [h1] at h
    simp only [bind, Except.bind] at h
    cases h2 : post.posts f ts with
    | error e => rw [h2] at h; simp at h
    | ok us =>
      rw [h2] at h
      simp only [Except.ok.injEq] at h
      exact ⟨u, us, rfl, rfl, h.symm⟩

theorem post_visible {f : α → List α → Except Err (α × List α)} :
    ∀ {t t' : Tree α}, post f t = .ok t' → t'.visible = t.visible
  | .node false a ks, t', h => by
    simp only [post, Except.ok.injEq] at h; rw [← h]
  | .node true a ks, t', h => by
    obtain ⟨ks', a', as', _, _, e⟩ := post_node_ok h
    rw [e]; rfl

section
variable {f : α → List α → Except Err (α × List α)} (hf : SelfOnly f)
    {R : α → α → Prop} (hR : ∀ a ks a' ks', f a ks = .ok (a', ks') → R a a')
    {P : α → List α → Prop}
    (hP : ∀ a ks a' ks', P a ks → R a a' → List.Forall₂ R ks ks' → P a' ks')
include hf hR hP

mutual
theorem post_self' : ∀ (t t' : Tree α), post f t = .ok t' → t.Forall P →
      (t.visible = true → R t.root t'.root) ∧
      t'.Forall (fun a ks => P a ks ∧ ∃ a0, R a0 a ∧ f a0 ks = .ok (a, ks))
  | .node false a ks, t', h, _ => by
    simp only [post, Except.ok.injEq] at h
    subst h
    simp [Forall, visible]
  | .node true a ks, t', h, hp => by
    obtain ⟨ks', a', as', h1, h2, e⟩ := post_node_ok h
    have e' := hf _ _ _ _ h2
    subst e'
    rw [setRoots_roots] at e
    subst e
    rw [Forall_node] at hp
    obtain ⟨g1, g2⟩ := posts_self ks ks' h1 hp.2
    have hr := hR _ _ _ _ h2
    refine ⟨fun _ => hr, ?_⟩
    rw [Forall_node]
    exact ⟨⟨hP _ _ _ _ hp.1 hr g1, a, hr, h2⟩, g2⟩
theorem posts_self : ∀ (ts ts' : List (Tree α)), post.posts f ts = .ok ts' → Forall.Foralls P ts →
      List.Forall₂ R (roots ts) (roots ts') ∧
      Forall.Foralls (fun a ks => P a ks ∧ ∃ a0, R a0 a ∧ f a0 ks = .ok (a, ks)) ts'
  | [], ts', h, _ => by
    simp only [post.posts, Except.ok.injEq] at h
    subst h
    simp [roots, Forall.Foralls]
  | t :: ts, ts', h, hp => by
    obtain ⟨u, us, h1, h2, e⟩ := posts_cons_ok h
    subst e
    simp only [Forall.Foralls] at hp ⊢
    obtain ⟨a1, a2⟩ := post_self' t u h1 hp.1
    obtain ⟨b1, b2⟩ := posts_self ts us h2 hp.2
    have hv := post_visible h1
    refine ⟨?_, a2, b2⟩
    simp only [roots, hv]
    cases h3 : t.visible with
    | true => simp only [if_true]; exact List.Forall₂.cons (a1 h3) b1
    | false => simpa using b1
end
end

/-- What is known of every view after a postorder traversal that changes each view itself: the
property `P` is kept, and each view is the result of the member function. -/
theorem post_self {f : α → List α → Except Err (α × List α)} (hf : SelfOnly f)
    {R : α → α → Prop} (hR : ∀ a ks a' ks', f a ks = .ok (a', ks') → R a a')
    {P : α → List α → Prop}
    (hP : ∀ a ks a' ks', P a ks → R a a' → List.Forall₂ R ks ks' → P a' ks')
    {t t' : Tree α} (h : post f t = .ok t') (hp : t.Forall P) :
    (t.visible = true → R t.root t'.root) ∧
      t'.Forall (fun a ks => P a ks ∧ ∃ a0, R a0 a ∧ f a0 ks = .ok (a, ks)) :=
  post_self' hf hR hP t t' h hp

section
variable {f : α → List α → Except Err (α × List α)}
    {T S : α → α → Prop} {P0 P' : α → List α → Prop}
    (hT : ∀ a ks a' ks', f a ks = .ok (a', ks') → T a a')
    (hP0 : ∀ a ks ks', P0 a ks → List.Forall₂ T ks ks' → P0 a ks')
    (hstep : ∀ a ks a' ks', P0 a ks → f a ks = .ok (a', ks') → P' a' ks' ∧ List.Forall₂ S ks ks')
    (hS : ∀ a a' ks, P' a ks → S a a' → P' a' ks)

include hS in
theorem Foralls_setRoots : ∀ (ts : List (Tree α)) (as : List α), List.Forall₂ S (roots ts) as →
    Forall.Foralls P' ts → Forall.Foralls P' (setRoots ts as)
  | [], as, _, _ => by simp [setRoots, Forall.Foralls]
  | .node false a ks :: ts, as, hr, hp => by
    simp only [roots, visible] at hr
    simp only [Forall.Foralls, setRoots, visible] at hp ⊢
    exact ⟨by simp [Forall], Foralls_setRoots ts as (by simpa using hr) hp.2⟩
  | .node true a ks :: ts, as, hr, hp => by
    simp only [roots, visible, if_true, root] at hr
    cases as with
    | nil => cases hr
    | cons b bs =>
      simp only [List.forall₂_cons] at hr
      simp only [Forall.Foralls, setRoots, visible, if_true, setRoot, kids, Forall_node] at hp ⊢
      exact ⟨⟨hS _ _ _ hp.1.1 hr.1, hp.1.2⟩, Foralls_setRoots ts bs hr.2 hp.2⟩

include hT hP0 hstep hS

mutual
theorem post_gen' : ∀ (t t' : Tree α), post f t = .ok t' → t.Forall P0 →
      (t.visible = true → T t.root t'.root) ∧ t'.Forall P'
  | .node false a ks, t', h, _ => by
    simp only [post, Except.ok.injEq] at h
    subst h
    simp [Forall, visible]
  | .node true a ks, t', h, hp => by
    obtain ⟨ks', a', as', h1, h2, e⟩ := post_node_ok h
    rw [Forall_node] at hp
    obtain ⟨g1, g2⟩ := posts_gen ks ks' h1 hp.2
    obtain ⟨s1, s2⟩ := hstep _ _ _ _ (hP0 _ _ _ hp.1 g1) h2
    subst e
    refine ⟨fun _ => hT _ _ _ _ h2, ?_⟩
    rw [Forall_node, roots_setRoots _ _ s2.length_eq.symm]
    exact ⟨s1, Foralls_setRoots hS _ _ s2 g2⟩
theorem posts_gen : ∀ (ts ts' : List (Tree α)), post.posts f ts = .ok ts' → Forall.Foralls P0 ts →
      List.Forall₂ T (roots ts) (roots ts') ∧ Forall.Foralls P' ts'
  | [], ts', h, _ => by
    simp only [post.posts, Except.ok.injEq] at h
    subst h
    simp [roots, Forall.Foralls]
  | t :: ts, ts', h, hp => by
    obtain ⟨u, us, h1, h2, e⟩ := posts_cons_ok h
    subst e
    simp only [Forall.Foralls] at hp ⊢
    obtain ⟨a1, a2⟩ := post_gen' t u h1 hp.1
    obtain ⟨b1, b2⟩ := posts_gen ts us h2 hp.2
    have hv := post_visible h1
    refine ⟨?_, a2, b2⟩
    simp only [roots, hv]
    cases h3 : t.visible with
    | true => simp only [if_true]; exact List.Forall₂.cons (a1 h3) b1
    | false => simpa using b1
end
end

/-- What is known of every view after a postorder traversal: `T` is the change of a view by its own turn, `S` its change
by the turn of its parent. -/
theorem post_gen {f : α → List α → Except Err (α × List α)}
    {T S : α → α → Prop} {P0 P' : α → List α → Prop}
    (hT : ∀ a ks a' ks', f a ks = .ok (a', ks') → T a a')
    (hP0 : ∀ a ks ks', P0 a ks → List.Forall₂ T ks ks' → P0 a ks')
    (hstep : ∀ a ks a' ks', P0 a ks → f a ks = .ok (a', ks') → P' a' ks' ∧ List.Forall₂ S ks ks')
    (hS : ∀ a a' ks, P' a ks → S a a' → P' a' ks)
    {t t' : Tree α} (h : post f t = .ok t') (hp : t.Forall P0) :
    (t.visible = true → T t.root t'.root) ∧ t'.Forall P' :=
  post_gen' hT hP0 hstep hS t t' h hp

/-! ### preorder -/

theorem pre_false (f : α → List α → Except Err (α × List α × Bool)) (a : α) (ks : List (Tree α)) :
    pre f (.node false a ks) = .ok (.node false a ks, false) := by
  simp only [pre, preAt]

theorem pre_true (f : α → List α → Except Err (α × List α × Bool)) (a : α) (ks : List (Tree α)) :
    pre f (.node true a ks) = (do
      let (a', as', b) ← f a (roots ks)
      let (ks', b') ← pre.pres f ks as'
      .ok (.node true a' ks', b || b')) := by
  simp only [pre, preAt, root]

theorem pres_nil (f : α → List α → Except Err (α × List α × Bool)) (as : List α) : pre.pres f [] as = .ok ([], false) := by
  simp only [pre.pres]

theorem pres_false (f : α → List α → Except Err (α × List α × Bool)) (a : α) (ks ts : List (Tree α)) (as : List α) :
    pre.pres f (.node false a ks :: ts) as = (do
      let (ts', b) ← pre.pres f ts as
      .ok (.node false a ks :: ts', b)) := by
  rw [pre.pres]
  simp only [visible, Bool.false_eq_true, if_false]

theorem pres_true (f : α → List α → Except Err (α × List α × Bool)) (a : α) (ks ts : List (Tree α)) (as : List α) :
    pre.pres f (.node true a ks :: ts) as = (do
      let (a', as', b) ← f (as.headD a) (roots ks)
      let (ks', b') ← pre.pres f ks as'
      let (ts', b'') ← pre.pres f ts as.tail
      .ok (.node true a' ks' :: ts', b || b' || b'')) := by
  rw [pre.pres]
  simp only [visible, if_true, preAt, root]
  cases f (as.headD a) (roots ks) with
  | error e => rfl
  | ok r =>
    simp only [bind, Except.bind]
    cases pre.pres f ks r.2.1 with
    | error e => rfl
    | ok q => rfl

theorem pre_node_ok {f : α → List α → Except Err (α × List α × Bool)} {a : α} {ks : List (Tree α)}
    {t' : Tree α} {b : Bool} (h : pre f (.node true a ks) = .ok (t', b)) :
    ∃ a' as' b1 ks' b2, f a (roots ks) = .ok (a', as', b1) ∧ pre.pres f ks as' = .ok (ks', b2) ∧
      t' = .node true a' ks' ∧ b = (b1 || b2) := by
  simp only [pre_true, pre_false] at h
  cases h1 : f a (roots ks) with
  | error e => rw [h1] at h; simp [bind, Except.bind] at h
  | ok r =>
    rw [h1] at h
    simp only [bind, Except.bind] at h
    cases h2 : pre.pres f ks r.2.1 with
    | error e => rw [h2] at h; simp at h
    | ok q =>
      rw [h2] at h
      simp only [Except.ok.injEq, Prod.mk.injEq] at h
      exact ⟨r.1, r.2.1, r.2.2, q.1, q.2, rfl, h2, h.1.symm, h.2.symm⟩

theorem pres_true_ok {f : α → List α → Except Err (α × List α × Bool)} {a : α} {ks ts : List (Tree α)}
    {as : List α} {ts' : List (Tree α)} {b : Bool}
    (h : pre.pres f (.node true a ks :: ts) as = .ok (ts', b)) :
    ∃ t' b1 us b2, pre f (.node true (as.headD a) ks) = .ok (t', b1) ∧
      pre.pres f ts as.tail = .ok (us, b2) ∧ ts' = t' :: us ∧ b = (b1 || b2) := by
  simp only [pres_nil, pres_false, pres_true] at h
  simp only [pre_true, pre_false]
  cases h1 : f (as.headD a) (roots ks) with
  | error e => rw [h1] at h; simp [bind, Except.bind] at h
  | ok r =>
    rw [h1] at h
    simp only [bind, Except.bind] at h ⊢
    cases h2 : pre.pres f ks r.2.1 with
    | error e => rw [h2] at h; simp at h
    | ok q =>
      rw [h2] at h
      simp only at h
      cases h3 : pre.pres f ts as.tail with
      | error e => rw [h3] at h; simp at h
      | ok w =>
        rw [h3] at h
        simp only [Except.ok.injEq, Prod.mk.injEq] at h
        refine ⟨_, _, w.1, w.2, rfl, rfl, h.1.symm, ?_⟩
        rw [← h.2]

theorem pres_false_ok {f : α → List α → Except Err (α × List α × Bool)} {a : α} {ks ts : List (Tree α)}
    {as : List α} {ts' : List (Tree α)} {b : Bool}
    (h : pre.pres f (.node false a ks :: ts) as = .ok (ts', b)) :
    ∃ us, pre.pres f ts as = .ok (us, b) ∧ ts' = .node false a ks :: us := by
  simp only [pres_nil, pres_false, pres_true] at h
  cases h3 : pre.pres f ts as with
  | error e => rw [h3] at h; simp [bind, Except.bind] at h
  | ok w =>
    rw [h3] at h
    simp only [bind, Except.bind, Except.ok.injEq, Prod.mk.injEq] at h
    exact ⟨w.1, by rw [← h.2], h.1.symm⟩

theorem pre_visible {f : α → List α → Except Err (α × List α × Bool)} :
    ∀ {t t' : Tree α} {b}, pre f t = .ok (t', b) → t'.visible = t.visible
  | .node false a ks, t', b, h => by
    simp only [pre_false, pre_true, Except.ok.injEq, Prod.mk.injEq] at h; rw [← h.1]
  | .node true a ks, t', b, h => by
    obtain ⟨_, _, _, _, _, _, _, e, _⟩ := pre_node_ok h
    rw [e]; rfl

section
variable {f : α → List α → Except Err (α × List α × Bool)} {σ : α → α}
    (hσ : ∀ a ks a' ks' b, f a ks = .ok (a', ks', b) → a' = σ a)
    {R : α → α → Prop} {Q : α → Prop} {P P' : α → List α → Prop}
    (hP : ∀ a ks a', P a ks → R a a' → P a' ks)
    (hstep : ∀ a ks ks' b, Q a → P a ks → f a ks = .ok (σ a, ks', b) →
      P' (σ a) (ks'.map σ) ∧ (∀ k ∈ ks', Q k) ∧ List.Forall₂ R ks ks')
include hσ hP hstep

mutual
theorem pre_kids' : ∀ (t t' : Tree α) (b : Bool), pre f t = .ok (t', b) → t.Forall P →
      (t.visible = true → Q t.root) →
      (t.visible = true → t'.root = σ t.root) ∧ t'.Forall P'
  | .node false a ks, t', b, h, _, _ => by
    simp only [pre_false, pre_true, Except.ok.injEq, Prod.mk.injEq] at h
    rw [← h.1]
    simp [Forall, visible]
  | .node true a ks, t', b, h, hp, hq => by
    obtain ⟨a', as', b1, ks', b2, h1, h2, e, _⟩ := pre_node_ok h
    rw [Forall_node] at hp
    have ea := hσ _ _ _ _ _ h1
    subst ea
    obtain ⟨g1, g2, g3⟩ := hstep _ _ _ _ (hq rfl) hp.1 h1
    obtain ⟨c1, c2⟩ := pres_kids ks as' ks' b2 h2 hp.2 g2 g3
    subst e
    refine ⟨fun _ => rfl, ?_⟩
    rw [Forall_node]
    rw [c1]
    exact ⟨g1, c2⟩
theorem pres_kids : ∀ (ts : List (Tree α)) (as : List α) (ts' : List (Tree α)) (b : Bool),
      pre.pres f ts as = .ok (ts', b) → Forall.Foralls P ts → (∀ k ∈ as, Q k) →
      List.Forall₂ R (roots ts) as →
      roots ts' = as.map σ ∧ Forall.Foralls P' ts'
  | [], as, ts', b, h, _, _, hr => by
    simp only [pres_nil, pres_false, pres_true, Except.ok.injEq, Prod.mk.injEq] at h
    simp only [roots, List.forall₂_nil_left_iff] at hr
    rw [← h.1, hr]
    simp [roots, Forall.Foralls]
  | .node false a ks :: ts, as, ts', b, h, hp, hq, hr => by
    obtain ⟨us, h1, e⟩ := pres_false_ok h
    simp only [Forall.Foralls] at hp
    simp only [roots, visible] at hr
    obtain ⟨c1, c2⟩ := pres_kids ts as us b h1 hp.2 hq (by simpa using hr)
    subst e
    refine ⟨by simpa [roots, visible] using c1, ?_⟩
    simp only [Forall.Foralls]
    exact ⟨by simp [Forall], c2⟩
  | .node true a ks :: ts, as, ts', b, h, hp, hq, hr => by
    obtain ⟨t', b1, us, b2, h1, h2, e, _⟩ := pres_true_ok h
    simp only [Forall.Foralls] at hp
    simp only [roots, visible, if_true, root] at hr
    cases as with
    | nil => cases hr
    | cons a1 as1 =>
      simp only [List.forall₂_cons] at hr
      simp only [List.headD_cons, List.tail_cons] at h1 h2
      have hp1 : Forall P (.node true a1 ks) := by
        rw [Forall_node] at hp ⊢
        exact ⟨hP _ _ _ hp.1.1 hr.1, hp.1.2⟩
      -- the subtree with its new root
      obtain ⟨a', as', b1', ks', b2', e1, e2, e3, _⟩ := pre_node_ok h1
      rw [Forall_node] at hp1
      have ea := hσ _ _ _ _ _ e1
      subst ea
      obtain ⟨g1, g2, g3⟩ := hstep _ _ _ _ (hq a1 (by simp)) hp1.1 e1
      obtain ⟨c1, c2⟩ := pres_kids ks as' ks' b2' e2 hp1.2 g2 g3
      obtain ⟨d1, d2⟩ := pres_kids ts as1 us b2 h2 hp.2 (fun k hk => hq k (by simp [hk])) hr.2
      subst e e3
      refine ⟨by simp [roots, visible, root, d1], ?_⟩
      simp only [Forall.Foralls, Forall_node]
      exact ⟨⟨by rw [c1]; exact g1, c2⟩, d2⟩
end
end

/-- What is known of every view after a preorder traversal whose member function changes the view by `σ` and its
children; `Q` holds of each view when its turn comes. -/
theorem pre_kids {f : α → List α → Except Err (α × List α × Bool)} {σ : α → α}
    (hσ : ∀ a ks a' ks' b, f a ks = .ok (a', ks', b) → a' = σ a)
    {R : α → α → Prop} {Q : α → Prop} {P P' : α → List α → Prop}
    (hP : ∀ a ks a', P a ks → R a a' → P a' ks)
    (hstep : ∀ a ks ks' b, Q a → P a ks → f a ks = .ok (σ a, ks', b) →
      P' (σ a) (ks'.map σ) ∧ (∀ k ∈ ks', Q k) ∧ List.Forall₂ R ks ks')
    {t t' : Tree α} {b : Bool} (h : pre f t = .ok (t', b)) (hp : t.Forall P)
    (hq : t.visible = true → Q t.root) :
    (t.visible = true → t'.root = σ t.root) ∧ t'.Forall P' :=
  pre_kids' hσ hP hstep t t' b h hp hq

end Tree
end Verif.Eve

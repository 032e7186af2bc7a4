import Verif.Task.Auto
/-! A task queue runs one task at a time, in the order in which it took them. -/
namespace Verif.Task

def Phase.cur : Option Phase → List Job
  | some (.ready j) | some (.running j) => [j]
  | _ => []

def Phase.tail : Option Phase → List Run
  | some (.running j) => [.start j]
  | _ => []

structure Ord (q : Nat) (s : State) (p : Option Phase) (done : List Job) : Prop where
  flight : flight q s = p.toList
  exec : (ser q s.shared).executing = p.isSome
  order : taken q s.trace = done ++ Phase.cur p ++ (ser q s.shared).q
  runs : runs q s.trace = sequential done ++ Phase.tail p
  idle : (ser q s.shared).executing = false → (ser q s.shared).suspend = false → (ser q s.shared).q = []
  own : ∀ j, p = some (.ready j) ∨ p = some (.running j) → j.queue = some q

@[simp] theorem taken_append (q a b) : taken q (a ++ b) = taken q a ++ taken q b := by simp [taken]
@[simp] theorem runs_append (q a b) : runs q (a ++ b) = runs q a ++ runs q b := by simp [runs]

@[simp] theorem taken_nil (q) : taken q [] = [] := rfl
@[simp] theorem runs_nil (q) : runs q [] = [] := rfl
theorem taken_cons (q e tr) : taken q (e :: tr) = (e.take q).toList ++ taken q tr := by
  simp only [taken, List.filterMap_cons]; cases e.take q <;> rfl
theorem runs_cons (q e tr) : runs q (e :: tr) = (e.run q).toList ++ runs q tr := by
  simp only [runs, List.filterMap_cons]; cases e.run q <;> rfl

theorem taken_filter (q tr) : taken q tr = taken q (tr.filter (Event.ofQueue q)) := by
  induction tr with
  | nil => rfl
  | cons e tr ih =>
    have : e.ofQueue q = false → e.take q = none := by
      cases e <;> simp [Event.take, Event.ofQueue]
    rw [List.filter_cons]
    split <;> simp_all [taken_cons]

theorem runs_filter (q tr) : runs q tr = runs q (tr.filter (Event.ofQueue q)) := by
  induction tr with
  | nil => rfl
  | cons e tr ih =>
    have : e.ofQueue q = false → e.run q = none := by
      cases e <;> simp [Event.run, Event.ofQueue]
    rw [List.filter_cons]
    split <;> simp_all [runs_cons]

theorem sequential_append (a b) : sequential (a ++ b) = sequential a ++ sequential b := by simp [sequential]

theorem toList_perm {α : Type} {l : List α} {p : Option α} (h : p.toList.Perm l) : l = p.toList := by
  cases p with
  | none => simpa using h
  | some a => exact (List.singleton_perm.mp h).symm

theorem ord_step {q s t p done} (h : Ord q s p done) (v : QView q s t) : ∃ p' done', Ord q t p' done' := by
  cases v with
  | stutter hf hs he =>
    obtain ⟨es, he, hn⟩ := he
    have h1 : taken q es = [] := by rw [taken_filter, hn]; rfl
    have h2 : runs q es = [] := by rw [runs_filter, hn]; rfl
    refine ⟨p, done, ?_, ?_, ?_, ?_, ?_, h.own⟩
    · exact toList_perm (by rw [← h.flight]; exact hf)
    · rw [hs, h.exec]
    · rw [he, hs]; simp [h1, h.order]
    · rw [he]; simp [h2, h.runs]
    · rw [hs]; exact h.idle
  | step a b rest es ha hb he hq =>
    rw [h.flight] at ha
    have hrest : a ≠ [] → rest = [] := by
      intro hne
      have := ha.length_eq
      have h1 : p.toList.length ≤ 1 := by cases p <;> simp
      simp at this
      have : a.length ≠ 0 := by simpa using hne
      exact List.eq_nil_of_length_eq_zero (by omega)
    have ho := h.order
    have hr := h.runs
    have hi := h.idle
    have hx := h.exec
    generalize ser q s.shared = x at *
    generalize hy : ser q t.shared = y at *
    have single : ∀ {c : Phase}, a = [c] → p = some c ∧ (flight q t).Perm b := by
      intro c hc
      subst hc
      rw [hrest (by simp)] at ha hb
      have := toList_perm ha
      constructor
      · cases p <;> simp_all
      · simpa using hb
    cases hq with
    | start j _ n hj =>
      obtain ⟨rfl, hb⟩ := single rfl
      refine ⟨some (.running j), done, ?_, ?_, ?_, ?_, ?_, by intro k hk; simp at hk; rwa [← hk]⟩
      · exact toList_perm hb.symm
      · simpa [hy] using hx
      · simp [he, hy, ho, Phase.cur, taken_cons, Event.take]
      · simp [he, hr, Phase.tail, runs_cons, Event.run, hj]
      · rwa [hy]
    | finish j _ hj =>
      obtain ⟨rfl, hb⟩ := single rfl
      refine ⟨some .after, done ++ [j], ?_, ?_, ?_, ?_, ?_, by simp⟩
      · exact toList_perm hb.symm
      · simpa [hy] using hx
      · simp [he, hy, ho, Phase.cur, taken_cons, Event.take]
      · simp [he, hr, Phase.tail, runs_cons, Event.run, hj, sequential]
      · rwa [hy]
    | next _ j js hs hk hj =>
      obtain ⟨rfl, hb⟩ := single rfl
      refine ⟨some (.ready j), done, ?_, ?_, ?_, ?_, ?_, by intro k hk; simp at hk; rwa [← hk]⟩
      · exact toList_perm hb.symm
      · simpa [hy] using hx
      · simp [he, hy, ho, Phase.cur, hk]
      · simp [he, hr, Phase.tail]
      · simp at hx; simp [hy, hx]
    | stop _ hs =>
      obtain ⟨rfl, hb⟩ := single rfl
      refine ⟨none, done, ?_, ?_, ?_, ?_, ?_, by simp⟩
      · exact toList_perm hb.symm
      · simp [hy]
      · simp [he, hy, ho, Phase.cur]
      · simp [he, hr, Phase.tail]
      · rw [hy]; simp; intro h; simp_all
    | now _ j hj hn hs =>
      have hp : p = none := by cases p <;> simp_all
      subst hp
      have : rest = [] := by simpa using ha
      subst this
      refine ⟨some (.ready j), done, ?_, ?_, ?_, ?_, ?_, by intro k hk; simp at hk; rwa [← hk]⟩
      · exact toList_perm (by simpa using hb.symm)
      · simp [hy]
      · simp [he, hy, ho, Phase.cur, taken_cons, Event.take, hj, hi hn hs]
      · simp [he, hr, Phase.tail, runs_cons, Event.run]
      · simp [hy]
    | later _ j hj hs =>
      have : rest = p.toList := toList_perm (by simpa using ha)
      subst this
      refine ⟨p, done, ?_, ?_, ?_, ?_, ?_, h.own⟩
      · exact toList_perm (by simpa using hb.symm)
      · simp [hy, hx]
      · simp [he, hy, ho, taken_cons, Event.take, hj]
      · simp [he, hr, runs_cons, Event.run]
      · rw [hy]; simp; intro h1; simp_all
    | suspend =>
      have : rest = p.toList := toList_perm (by simpa using ha)
      subst this
      refine ⟨p, done, ?_, ?_, ?_, ?_, ?_, h.own⟩
      · exact toList_perm (by simpa using hb.symm)
      · simp [hy, hx]
      · simp [he, hy, ho]
      · simp [he, hr]
      · rw [hy]; simp
    | resumeOnly _ hs =>
      have : rest = p.toList := toList_perm (by simpa using ha)
      subst this
      refine ⟨p, done, ?_, ?_, ?_, ?_, ?_, h.own⟩
      · exact toList_perm (by simpa using hb.symm)
      · simp [hy, hx]
      · simp [he, hy, ho]
      · simp [he, hr]
      · rw [hy]; simp; intro h1; simp_all
    | resumeNext _ j js hn hk hj =>
      have hp : p = none := by cases p <;> simp_all
      subst hp
      have : rest = [] := by simpa using ha
      subst this
      refine ⟨some (.ready j), done, ?_, ?_, ?_, ?_, ?_, by intro k hk; simp at hk; rwa [← hk]⟩
      · exact toList_perm (by simpa using hb.symm)
      · simp [hy]
      · simp [he, hy, ho, Phase.cur, hk]
      · simp [he, hr, Phase.tail]
      · simp [hy]

theorem ordered (q : Nat) {n s} (h : Reachable n s) : ∃ p done, Ord q s p done := by
  refine steps_induction h ?_ ?_ ?_
  · refine ⟨none, [], ?_, ?_, ?_, ?_, ?_, by simp⟩
    · have : (initial n).threads.flatMap (phaseT q) = [] := by
        simp only [initial, List.flatMap_append, List.flatMap_eq_nil_iff, List.append_eq_nil_iff]
        constructor
        · intro t ht; rw [List.eq_of_mem_replicate ht]; rfl
        · simp [phaseT]
      rw [flight, this]; simp [initial, phaseS]
    all_goals simp [initial, ser, Phase.cur, Phase.tail, sequential]
  · rintro s t hr ⟨p, d, ih⟩ h
    exact ord_step ih (view_internal q hr h)
  · rintro s t hr ⟨p, d, ih⟩ h
    exact ord_step ih (view_external q h)

end Verif.Task

import Verif.Task.Count
/-! The steps of the system, seen from one task queue. -/
namespace Verif.Task

/-- What the task a queue has released is doing. -/
inductive Phase
  | ready (j : Job)
  | running (j : Job)
  | after
  deriving DecidableEq, Repr

def readyIf (q : Nat) (j : Job) : List Phase := if j.queue = some q then [.ready j] else []

def phaseT (q : Nat) : Thread → List Phase
  | .poolPush j _ | .poolCall j | .timedPush _ j => readyIf q j
  | .poolRun j => if j.queue = some q then [.running j] else []
  | .poolAfter q' => if q' = q then [.after] else []
  | _ => []

def phaseS (q : Nat) (s : Shared) : List Phase := s.pool.flatMap (readyIf q) ++ (s.timed.map Prod.snd).flatMap (readyIf q)

def flight (q : Nat) (s : State) : List Phase := s.threads.flatMap (phaseT q) ++ phaseS q s.shared

def ser (q : Nat) (s : Shared) : Serial := s.serial[q]?.getD {}

theorem ser_of {q s x} (h : s.serial[q]? = some x) : ser q s = x := by simp [ser, h]

theorem ser_setSerial {q q' : Nat} {s : Shared} {x y : Serial} (h : s.serial[q']? = some x) :
    ser q (s.setSerial q' y) = if q' = q then y else ser q s := by
  simp only [ser, Shared.setSerial, List.getElem?_set]
  split
  · next e =>
    subst e
    have : q' < s.serial.length := by
      rw [List.getElem?_eq_some_iff] at h; exact h.1
    simp [this]
  · rfl

theorem phaseS_setSerial (q q' : Nat) (s : Shared) (y : Serial) : phaseS q (s.setSerial q' y) = phaseS q s := rfl

/-- The step of one task queue: the phase of its released task, its state, and what can be seen. -/
inductive QStep (q : Nat) : List Phase → Serial → List Event → List Phase → Serial → Prop
  | start (j x n) : j.queue = some q → QStep q [.ready j] x [.started j n] [.running j] x
  | finish (j x) : j.queue = some q → QStep q [.running j] x [.finished j] [.after] x
  | next (x j js) : x.suspend = false → x.q = j :: js → j.queue = some q → QStep q [.after] x [] [.ready j] { x with q := js }
  | stop (x) : (x.suspend = true ∨ x.q = []) → QStep q [.after] x [] [] { x with executing := false }
  | now (x j) : j.queue = some q → x.executing = false → x.suspend = false →
      QStep q [] x [.accepted j] [.ready j] { x with executing := true }
  | later (x j) : j.queue = some q → (x.executing = true ∨ x.suspend = true) →
      QStep q [] x [.accepted j] [] { x with q := x.q ++ [j] }
  | suspend (x) : QStep q [] x [] [] { x with suspend := true }
  | resumeOnly (x) : (x.executing = true ∨ x.q = []) → QStep q [] x [] [] { x with suspend := false }
  | resumeNext (x j js) : x.executing = false → x.q = j :: js → j.queue = some q →
      QStep q [] x [] [.ready j] { q := js, suspend := false, executing := true }

/-- The tasks a queue holds are its own. -/
structure Own (s : State) : Prop where
  thread : ∀ q j, .serialAsync q j ∈ s.threads → j.queue = some q
  waiting : ∀ q j, j ∈ (ser q s.shared).q → j.queue = some q

/-- An event of the queue `q`: a task of it is accepted, starts or finishes. -/
def Event.ofQueue (q : Nat) : Event → Bool
  | .accepted j | .started j _ | .finished j => j.queue == some q
  | _ => false

theorem flatMap_mid {q} (l r : List Thread) (th : Thread) (sh : Shared) :
    ((l ++ th :: r).flatMap (phaseT q) ++ phaseS q sh).Perm (phaseT q th ++ phaseS q sh ++ (l ++ r).flatMap (phaseT q)) := by
  simp only [List.flatMap_append, List.flatMap_cons, List.append_assoc]
  generalize l.flatMap (phaseT q) = L
  generalize r.flatMap (phaseT q) = R
  generalize phaseT q th = T
  generalize phaseS q sh = S
  rw [List.perm_iff_count]
  intro a
  simp only [List.count_append]
  omega

/-- A thread's step is a step of the queue, or one the queue does not notice. -/
theorem local_project (q : Nat) {s th es s' th'} (h : Local s th es s' th')
    (h1 : ∀ q j, th = .serialAsync q j → j.queue = some q) (h2 : ∀ q j, j ∈ (ser q s).q → j.queue = some q) :
    ((phaseT q th ++ phaseS q s).Perm (phaseT q th' ++ phaseS q s') ∧ ser q s' = ser q s ∧ es.filter (Event.ofQueue q) = []) ∨
    (phaseS q s' = phaseS q s ∧ QStep q (phaseT q th) (ser q s) es (phaseT q th') (ser q s')) := by
  cases h with
  | ret k => left; cases k <;> simp [phaseT, Event.ofQueue, Ret.event]
  | poolPush j h =>
    left; refine ⟨?_, rfl, rfl⟩
    simp only [phaseT, phaseS, List.perm_iff_count]
    intro a; simp; omega
  | poolTake k js hp =>
    left; refine ⟨?_, rfl, rfl⟩
    simp only [phaseT, phaseS, List.perm_iff_count, hp]
    intro a; simp
  | poolEmpty hp => left; simp [phaseT]
  | poolCall j =>
    by_cases hj : j.queue = some q
    · right; refine ⟨rfl, ?_⟩
      simp only [phaseT, readyIf, hj, if_true]
      exact .start _ _ _ hj
    · left; simp [phaseT, readyIf, hj, Event.ofQueue]
  | poolDone j hn => left; simp [phaseT, hn, Event.ofQueue]
  | poolAfter j q' hq =>
    by_cases hj : q' = q
    · subst hj
      right; refine ⟨rfl, ?_⟩
      simp only [phaseT, hq, if_true]
      exact .finish _ _ hq
    · left; simp [phaseT, hq, Event.ofQueue, hj]
  | continueNext q' x j js hq hs hk =>
    have hj := h2 q' j (by rw [ser_of hq]; simp [hk])
    by_cases e : q' = q
    · subst e
      right; refine ⟨rfl, ?_⟩
      simp only [phaseT, readyIf, hj, if_true, ser_setSerial hq, ser_of hq]
      exact .next _ _ _ hs hk hj
    · left; simp [phaseT, e, readyIf, hj, ser_setSerial hq, phaseS_setSerial]
  | continueStop q' x hq hs =>
    by_cases e : q' = q
    · subst e
      right; refine ⟨rfl, ?_⟩
      simp only [phaseT, if_true, ser_setSerial hq, ser_of hq]
      exact .stop _ hs
    · left; simp [phaseT, e, ser_setSerial hq, phaseS_setSerial]
  | timedPush t j =>
    left; refine ⟨?_, rfl, rfl⟩
    simp only [phaseT, phaseS, List.perm_iff_count]
    intro a; simp; omega
  | timedEmpty hp => left; simp [phaseT]
  | timedEarly => left; simp [phaseT]
  | timedTake t j l r hp =>
    left; refine ⟨?_, rfl, rfl⟩
    simp only [phaseT, phaseS, List.perm_iff_count, hp]
    intro a; simp; omega
  | timedTimeout => left; simp [phaseT]
  | serialNow q' x j hq he hs =>
    have hj := h1 q' j rfl
    by_cases e : q' = q
    · subst e
      right; refine ⟨rfl, ?_⟩
      simp only [phaseT, readyIf, hj, if_true, ser_setSerial hq, ser_of hq]
      exact .now _ _ hj he hs
    · left; simp [phaseT, e, readyIf, hj, ser_setSerial hq, phaseS_setSerial, Event.ofQueue]
  | serialLater q' x j hq he =>
    have hj := h1 q' j rfl
    by_cases e : q' = q
    · subst e
      right; refine ⟨rfl, ?_⟩
      simp only [phaseT, if_true, ser_setSerial hq, ser_of hq]
      exact .later _ _ hj he
    · left; simp [phaseT, e, hj, ser_setSerial hq, phaseS_setSerial, Event.ofQueue]
  | suspend q' x hq =>
    by_cases e : q' = q
    · subst e
      right; refine ⟨rfl, ?_⟩
      simp only [phaseT, if_true, ser_setSerial hq, ser_of hq]
      exact .suspend _
    · left; simp [phaseT, e, ser_setSerial hq, phaseS_setSerial]
  | resumeNot => left; simp [phaseT]
  | resumeOnly q' x hq hs he =>
    by_cases e : q' = q
    · subst e
      right; refine ⟨rfl, ?_⟩
      simp only [phaseT, if_true, ser_setSerial hq, ser_of hq]
      exact .resumeOnly _ he
    · left; simp [phaseT, e, ser_setSerial hq, phaseS_setSerial]
  | resumeNext q' x j js hq hs he hk =>
    have hj := h2 q' j (by rw [ser_of hq]; simp [hk])
    by_cases e : q' = q
    · subst e
      right; refine ⟨rfl, ?_⟩
      simp only [phaseT, readyIf, hj, if_true, ser_setSerial hq, ser_of hq]
      exact .resumeNext _ _ _ he hk hj
    · left; simp [phaseT, e, readyIf, hj, ser_setSerial hq, phaseS_setSerial]

theorem wakes_mem {a b c} {l l' : List Thread} (ha : ¬ a c) (hb : c ≠ b) (h : Wakes a b l l') : c ∈ l' ↔ c ∈ l := by
  cases h with
  | one l th r ht =>
    have : c ≠ th := by rintro rfl; exact ha ht
    simp [this, hb]
  | none => rfl

/-- The queue of a task in a serial queue changes only by the step of a thread. -/
theorem local_ser_mem {s th es s' th'} (h : Local s th es s' th') (q : Nat) (j : Job) (hj : j ∈ (ser q s').q) :
    j ∈ (ser q s).q ∨ th = .serialAsync q j := by
  have key : ∀ {q' x y}, s.serial[q']? = some x → (∀ k ∈ y.q, k ∈ x.q ∨ th = .serialAsync q' k) → j ∈ (ser q (s.setSerial q' y)).q →
      j ∈ (ser q s).q ∨ th = .serialAsync q j := by
    intro q' x y hx hy hm
    rw [ser_setSerial hx] at hm
    split at hm
    · next e => subst e; rw [ser_of hx]; exact hy j hm
    · exact .inl hm
  cases h with
  | continueNext q' x k js hq hs hk => exact key hq (by intro k hk'; simp at hk'; exact .inl (by simp [hk, hk'])) hj
  | continueStop q' x hq hs => exact key hq (by intro k hk; exact .inl hk) hj
  | serialNow q' x j hq => exact key hq (by intro k hk; exact .inl hk) hj
  | serialLater q' x k hq =>
    refine key hq (fun k hk => ?_) hj
    simp at hk
    rcases hk with hk | rfl
    · exact .inl hk
    · exact .inr rfl
  | suspend q' x hq => exact key hq (by intro k hk; exact .inl hk) hj
  | resumeOnly q' x hq => exact key hq (by intro k hk; exact .inl hk) hj
  | resumeNext q' x k js hq hs he hk => exact key hq (by intro k hk'; simp at hk'; exact .inl (by simp [hk, hk'])) hj
  | _ => exact .inl hj

theorem own {n s} (h : Reachable n s) : Own s := by
  refine steps_induction h ?_ ?_ ?_
  · constructor <;> simp [initial, ser]
  · intro s t _ ih h
    cases h with
    | thread l th r es sh th' ht hl =>
      constructor
      · intro q j hm
        apply ih.thread q j
        simp only [ht, List.mem_append, List.mem_cons] at hm ⊢
        rcases hm with hm | rfl | hm
        · exact .inl hm
        · exfalso; cases hl
        · exact .inr (.inr hm)
      · intro q j hm
        rcases local_ser_mem hl q j hm with h | rfl
        · exact ih.waiting q j h
        · exact ih.thread q j (by simp [ht])
    | poolNotify l h r ts ht hw =>
      refine ⟨fun q j hm => ih.thread q j ?_, ih.waiting⟩
      rw [wakes_mem (by simp) (by simp) hw] at hm
      have h2 : h.thread ≠ .serialAsync q j := by cases h <;> simp [Home.thread]
      simp only [ht, List.mem_append, List.mem_cons, h2.symm] at hm ⊢
      tauto
    | timedNotify l e r ts ht hw =>
      refine ⟨fun q j hm => ih.thread q j ?_, ih.waiting⟩
      rw [wakes_mem (by simp [Thread.timedAsleep]) (by simp) hw] at hm
      simp [ht] at hm ⊢
      tauto
  · intro s t _ ih h
    cases h with
    | call c hc =>
      refine ⟨fun q j hm => ?_, ih.waiting⟩
      simp only [List.mem_append, List.mem_singleton] at hm
      rcases hm with hm | hm
      · exact ih.thread q j hm
      · cases c <;> simp [Call.thread] at hm
        obtain ⟨rfl, rfl⟩ := hm; rfl
    | newQueue =>
      refine ⟨ih.thread, fun q j hm => ih.waiting q j ?_⟩
      simp only [ser, List.getElem?_append] at hm ⊢
      split at hm
      · exact hm
      · exfalso
        rw [List.getElem?_singleton] at hm
        split at hm <;> simp at hm
    | tick => exact ⟨ih.thread, ih.waiting⟩
    | spuriousPool l r ht =>
      refine ⟨fun q j hm => ih.thread q j ?_, ih.waiting⟩
      simp [ht] at hm ⊢; exact hm
    | spuriousTimed l th r ht ha =>
      refine ⟨fun q j hm => ih.thread q j ?_, ih.waiting⟩
      simp [ht] at hm ⊢; tauto

/-- What a step of the system is for the queue `q`. -/
inductive QView (q : Nat) (s t : State) : Prop
  | stutter : (flight q s).Perm (flight q t) → ser q t.shared = ser q s.shared →
      (∃ es, t.trace = s.trace ++ es ∧ es.filter (Event.ofQueue q) = []) → QView q s t
  | step (a b rest es) : (flight q s).Perm (a ++ rest) → (flight q t).Perm (b ++ rest) → t.trace = s.trace ++ es →
      QStep q a (ser q s.shared) es b (ser q t.shared) → QView q s t

theorem wakes_flatMap {q a b} {l l' : List Thread} (ha : ∀ t, a t → phaseT q t = []) (hb : phaseT q b = []) (h : Wakes a b l l') :
    l'.flatMap (phaseT q) = l.flatMap (phaseT q) := by
  cases h with
  | one l th r ht => simp [ha th ht, hb]
  | none => rfl

theorem view_internal (q : Nat) {n s t} (hr : Reachable n s) (h : Internal s t) : QView q s t := by
  have ho := own hr
  cases h with
  | thread l th r es sh th' ht hl =>
    have h1 : (flight q s).Perm (phaseT q th ++ phaseS q s.shared ++ (l ++ r).flatMap (phaseT q)) := by
      rw [flight, ht]; exact flatMap_mid l r th s.shared
    have h2 := flatMap_mid (q := q) l r th' sh
    rcases local_project q hl (fun q j e => ho.thread q j (by simp [ht, e])) ho.waiting with ⟨hp, hs, he⟩ | ⟨hp, hs⟩
    · refine .stutter (h1.trans (.trans ?_ h2.symm)) hs ⟨es, rfl, he⟩
      exact hp.append_right _
    · refine .step (phaseT q th) (phaseT q th') (phaseS q s.shared ++ (l ++ r).flatMap (phaseT q)) es ?_ ?_ rfl hs
      · rw [← List.append_assoc]; exact h1
      · rw [← List.append_assoc, ← hp]; exact h2
  | poolNotify l h r ts ht hw =>
    refine .stutter ?_ rfl ⟨[], by simp⟩
    have := wakes_flatMap (q := q) (by rintro _ rfl; rfl) rfl hw
    have h2 : phaseT q h.thread = [] := by cases h <;> rfl
    simp [flight, this, ht, h2]
    simp [phaseT]
  | timedNotify l e r ts ht hw =>
    refine .stutter ?_ rfl ⟨[], by simp⟩
    have := wakes_flatMap (q := q) (by intro t h; cases t <;> simp_all [Thread.timedAsleep, phaseT]) rfl hw
    simp [flight, this, ht]
    simp [phaseT]

theorem view_external (q : Nat) {s t} (h : External s t) : QView q s t := by
  cases h with
  | call c hc =>
    refine .stutter ?_ rfl ⟨_, rfl, ?_⟩
    · have : phaseT q (c.thread s.next) = [] := by cases c <;> simp [Call.thread, phaseT, readyIf]
      simp [flight, this]
    · cases c <;> rfl
  | newQueue =>
    refine .stutter (by simp [flight, phaseS]) ?_ ⟨[], by simp⟩
    simp only [ser, List.getElem?_append]
    split
    · rfl
    · next h =>
      rw [List.getElem?_singleton, List.getElem?_eq_none (by omega)]
      split <;> rfl
  | tick => exact .stutter (by simp [flight, phaseS]) rfl ⟨[], by simp⟩
  | spuriousPool l r ht => exact .stutter (by simp [flight, ht]; simp [phaseT]) rfl ⟨[], by simp⟩
  | spuriousTimed l th r ht ha =>
    have : phaseT q th = [] := by cases th <;> simp_all [Thread.timedAsleep, phaseT]
    exact .stutter (by simp [flight, ht, this]; simp [phaseT]) rfl ⟨[], by simp⟩

theorem view (q : Nat) {n s t} (hr : Reachable n s) (h : Step s t) : QView q s t :=
  h.elim (view_internal q hr) (view_external q)

end Verif.Task

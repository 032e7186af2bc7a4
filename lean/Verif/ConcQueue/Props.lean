import Verif.ConcQueue.Spec
namespace Verif.ConcQueue
open Spec
variable {V : Type}

/-! ### Order in lists -/

theorem Before.append {α : Type} {a b : α} {l : List α} (h : Before a b l) (m : List α) : Before a b (l ++ m) := by
  obtain ⟨l₁, l₂, l₃, rfl⟩ := h
  exact ⟨l₁, l₂, l₃ ++ m, by simp⟩

theorem Before.of_mem {α : Type} {a : α} {l : List α} (h : a ∈ l) (b : α) : Before a b (l ++ [b]) := by
  obtain ⟨l₁, l₂, rfl⟩ := List.append_of_mem h
  exact ⟨l₁, l₂, [], by simp⟩

theorem Before.snoc {α : Type} {a b c : α} {l : List α} (h : Before a b (l ++ [c])) :
    Before a b l ∨ (b = c ∧ a ∈ l) := by
  obtain ⟨l₁, l₂, l₃, h⟩ := h
  rcases List.eq_nil_or_concat l₃ with rfl | ⟨l₃', d, rfl⟩
  · have h' : l ++ [c] = (l₁ ++ a :: l₂) ++ [b] := by simpa using h
    obtain ⟨h1, h2⟩ := List.append_inj' h' rfl
    right
    refine ⟨by simpa using h2.symm, by simp [h1]⟩
  · have h' : l ++ [c] = (l₁ ++ a :: l₂ ++ b :: l₃') ++ [d] := by simpa using h
    obtain ⟨h1, h2⟩ := List.append_inj' h' rfl
    left
    exact ⟨l₁, l₂, l₃', h1⟩

/-! ### The invariant -/

/-- The effect of a `pop` whose local list is `t`. -/
def effectOf : Option V → Effect V
  | none => .sawEmpty
  | some x => .took x

/-- The call at control point `p` can have had the effect `e`. -/
def Agrees : PC V → Effect V → Prop
  | .pushSpliced, e => ∃ x, e = .added x
  | .pushFree, e => ∃ x, e = .added x
  | .popLocked t, e => e = effectOf t
  | .popFree t, e => e = effectOf t
  | .done, _ => True
  | _, _ => False

/-- The call at control point `p` has taken effect. -/
def Took : PC V → Prop
  | .pushSpliced | .pushFree | .popLocked _ | .popFree _ | .done => True
  | _ => False

/-- What was called, at control point `p`. -/
def CalledAs : PC V → Op V → Prop
  | .pushStart x, op | .pushNode x, op | .pushHeld x, op => op = .push x
  | .pushSpliced, op | .pushFree, op => ∃ x, op = .push x
  | .popStart, op | .popHeld, op | .popSeen, op | .popLocked _, op | .popFree _, op => op = .pop
  | .done, _ => True
  | _, _ => False

/-- The call at control point `p` holds the lock. -/
def Holds : PC V → Prop
  | .pushHeld _ | .pushSpliced | .popHeld | .popSeen | .popLocked _ => True
  | _ => False

/-- The invariant, with the linearization `L` built so far. -/
structure Inv (h : List (Event V)) (s : State V) (L : List (Nat × Effect V)) : Prop where
  fifo : Fifo (L.map Prod.snd) s.q
  once : (L.map Prod.fst).Nodup
  lin : ∀ i e, (i, e) ∈ L → Agrees (s.pc i) e
  has : ∀ i, Took (s.pc i) → ∃ e, (i, e) ∈ L
  poss : ∀ i e, (i, e) ∈ L → ∃ op, Event.inv i op ∈ h ∧ Possible op e
  ended : ∀ i op r, Event.inv i op ∈ h → Event.res i r ∈ h → ∃ e, (i, e) ∈ L ∧ Fits op r e
  resDone : ∀ i r, Event.res i r ∈ h → s.pc i = .done
  called : ∀ i op, Event.inv i op ∈ h → CalledAs (s.pc i) op
  uniq : ∀ i op op', Event.inv i op ∈ h → Event.inv i op' ∈ h → op = op'
  inFlight : ∀ i, s.pc i ≠ .unused → ∃ op, Event.inv i op ∈ h
  real : ∀ i j r op ej, Before (.res i r) (.inv j op) h → (j, ej) ∈ L → ∃ ei, Before (i, ei) (j, ej) L
  held : ∀ i, Holds (s.pc i) ↔ s.lock = some i
  seen : ∀ i, s.pc i = .popSeen → s.q ≠ []
  defined : ∀ i, s.pc i ≠ .undefined

theorem inv_init : Inv [] (State.init : State V) [] where
  fifo := .nil
  once := by simp
  lin := by simp
  has := by simp [State.init, Took]
  poss := by simp
  ended := by simp
  resDone := by simp
  called := by simp
  uniq := by simp
  inFlight := by simp [State.init]
  real := by simp
  held := by simp [State.init, Holds]
  seen := by simp [State.init]
  defined := by simp [State.init]

/-- A step that takes no effect and is not observed. -/
theorem Inv.quiet {h : List (Event V)} {s : State V} {L} (I : Inv h s L) (i : Nat) (p' : PC V) (lk : Option Nat)
    (hag : ∀ e, Agrees (s.pc i) e → Agrees p' e) (ht : Took p' → Took (s.pc i)) (hnd : s.pc i ≠ .done)
    (hc : ∀ op, CalledAs (s.pc i) op → CalledAs p' op) (hu : s.pc i ≠ .unused)
    (hh : ∀ j, (if j = i then Holds p' else Holds (s.pc j)) ↔ lk = some j)
    (hs : p' = .popSeen → s.q ≠ []) (hd : p' ≠ .undefined) :
    Inv h ({ s with lock := lk }.at i p') L where
  fifo := I.fifo
  once := I.once
  lin := by intro j e hj; have := I.lin j e hj; simp only [State.at]; grind
  has := by intro j hj; have := I.has j; simp only [State.at] at hj; grind
  poss := I.poss
  ended := I.ended
  resDone := by intro j r hj; have := I.resDone j r hj; simp only [State.at]; grind
  called := by intro j op hj; have := I.called j op hj; simp only [State.at]; grind
  uniq := I.uniq
  inFlight := by intro j hj; have := I.inFlight j; simp only [State.at] at hj; grind
  real := I.real
  held := by intro j; refine Iff.trans ?_ (hh j); simp only [State.at]; split <;> simp_all
  seen := by intro j hj; have := I.seen j; simp only [State.at] at hj ⊢; grind
  defined := by intro j; have := I.defined j; simp only [State.at]; grind

/-- A step of the holder of the lock at which its call takes effect. -/
theorem Inv.commit {h : List (Event V)} {s : State V} {L} (I : Inv h s L) (i : Nat) (p' : PC V) (q' : List V)
    (e : Effect V) (hf : Fifo (L.map Prod.snd ++ [e]) q') (hag : Agrees p' e) (hold : Holds (s.pc i)) (hnew : Holds p')
    (hnt : ¬ Took (s.pc i)) (hc : ∀ op, CalledAs (s.pc i) op → CalledAs p' op ∧ Possible op e)
    (hu : s.pc i ≠ .unused) (hs : p' ≠ .popSeen) (hd : p' ≠ .undefined) :
    Inv h ({ s with q := q' }.at i p') (L ++ [(i, e)]) := by
  have hlock := (I.held i).1 hold
  have hni : ∀ e', (i, e') ∉ L := by
    intro e' he'
    have := I.lin i e' he'
    cases hp : s.pc i <;> simp_all [Agrees, Took]
  have hnd : s.pc i ≠ .done := by intro h0; rw [h0] at hnt; exact hnt trivial
  refine ⟨by simpa [State.at] using hf, ?_, ?_, ?_, ?_, ?_, ?_, ?_, I.uniq, ?_, ?_, ?_, ?_, ?_⟩
  · have := I.once
    simp only [List.map_append, List.map_cons, List.map_nil]
    rw [List.nodup_append]
    refine ⟨this, by simp, ?_⟩
    intro a ha b hb
    simp only [List.mem_map, Prod.exists, exists_and_right, exists_eq_right] at ha
    obtain ⟨e', ha⟩ := ha
    simp at hb
    rintro rfl
    subst hb
    exact hni _ ha
  · intro j e' hj
    rcases List.mem_append.1 hj with hj | hj
    · have := I.lin j e' hj; simp only [State.at]; grind
    · simp only [List.mem_singleton, Prod.mk.injEq] at hj; simp only [State.at]; grind
  · intro j hj; have := I.has j; simp only [State.at] at hj; grind
  · intro j e' hj
    rcases List.mem_append.1 hj with hj | hj
    · exact I.poss j e' hj
    · simp only [List.mem_singleton, Prod.mk.injEq] at hj
      obtain ⟨rfl, rfl⟩ := hj
      obtain ⟨op, hop⟩ := I.inFlight j hu
      exact ⟨op, hop, (hc op (I.called j op hop)).2⟩
  · intro j op r h1 h2; obtain ⟨e', h3, h4⟩ := I.ended j op r h1 h2; exact ⟨e', by simp [h3], h4⟩
  · intro j r hj; have := I.resDone j r hj; simp only [State.at]; grind
  · intro j op hj; have := I.called j op hj; simp only [State.at]; grind
  · intro j hj; have := I.inFlight j; simp only [State.at] at hj; grind
  · intro a b r op eb hab hb
    rcases List.mem_append.1 hb with hb | hb
    · obtain ⟨ea, hea⟩ := I.real a b r op eb hab hb; exact ⟨ea, Before.append hea _⟩
    · simp only [List.mem_singleton, Prod.mk.injEq] at hb
      obtain ⟨rfl, rfl⟩ := hb
      have hra : Event.res a r ∈ h := by obtain ⟨l₁, l₂, l₃, rfl⟩ := hab; simp
      have hda := I.resDone a r hra
      obtain ⟨ea, hea⟩ := I.has a (by rw [hda]; trivial)
      exact ⟨ea, Before.of_mem hea _⟩
  · intro j; have := I.held j; simp only [State.at]; grind
  · intro j hj
    simp only [State.at] at hj
    split at hj
    · exact absurd hj hs
    · have : Holds (s.pc j) := by rw [hj]; trivial
      rw [I.held j, hlock] at this; simp at this; omega
  · intro j; have := I.defined j; simp only [State.at]; grind

/-- A step by which a call begins. -/
theorem Inv.call {h : List (Event V)} {s : State V} {L} (I : Inv h s L) (i : Nat) (op : Op V) (p' : PC V)
    (hu : s.pc i = .unused) (hc : CalledAs p' op) (ht : ¬ Took p') (hh : ¬ Holds p') (hs : p' ≠ .popSeen)
    (hd : p' ≠ .undefined) : Inv (h ++ [.inv i op]) (s.at i p') L := by
  have hni : ∀ e', (i, e') ∉ L := by
    intro e' he'; have := I.lin i e' he'; rw [hu] at this; exact this
  have hnc : ∀ o, Event.inv i o ∉ h := by
    intro o ho; have := I.called i o ho; rw [hu] at this; exact this
  have hnr : ∀ r, Event.res i r ∉ h := by
    intro r hr; have := I.resDone i r hr; rw [hu] at this; cases this
  refine ⟨I.fifo, I.once, ?_, ?_, ?_, ?_, ?_, ?_, ?_, ?_, ?_, ?_, ?_, ?_⟩
  · intro j e hj; have := I.lin j e hj; simp only [State.at]; grind
  · intro j hj; have := I.has j; simp only [State.at] at hj; grind
  · intro j e hj; obtain ⟨o, ho, hp⟩ := I.poss j e hj; exact ⟨o, by simp [ho], hp⟩
  · intro j o r h1 h2
    have h2' : Event.res j r ∈ h := by simpa using h2
    have h1' : Event.inv j o ∈ h := by
      rcases List.mem_append.1 h1 with h1 | h1
      · exact h1
      · simp at h1; obtain ⟨rfl, rfl⟩ := h1; exact absurd h2' (hnr r)
    exact I.ended j o r h1' h2'
  · intro j r hj
    have hj' : Event.res j r ∈ h := by simpa using hj
    have := I.resDone j r hj'; simp only [State.at]; grind
  · intro j o hj
    rcases List.mem_append.1 hj with hj | hj
    · have := I.called j o hj; simp only [State.at]; grind
    · simp at hj; obtain ⟨rfl, rfl⟩ := hj; simpa [State.at] using hc
  · intro j o o' h1 h2
    have := I.uniq j o o'
    grind
  · intro j hj
    simp only [State.at] at hj
    by_cases hji : j = i
    · subst hji; exact ⟨op, by simp⟩
    · rw [if_neg hji] at hj
      obtain ⟨o, ho⟩ := I.inFlight j hj; exact ⟨o, by simp [ho]⟩
  · intro a b r o eb hab hb
    rcases Before.snoc hab with hab | ⟨h1, -⟩
    · exact I.real a b r o eb hab hb
    · simp at h1; obtain ⟨rfl, rfl⟩ := h1; exact absurd hb (hni _)
  · intro j
    have := I.held j
    simp only [State.at]
    by_cases hji : j = i
    · subst hji
      simp only [if_true]
      rw [hu] at this
      exact ⟨fun h0 => absurd h0 hh, fun h0 => absurd (this.2 h0) (by simp [Holds])⟩
    · rw [if_neg hji]; exact this
  · intro j hj; have := I.seen j; simp only [State.at] at hj ⊢; grind
  · intro j; have := I.defined j; simp only [State.at]; grind

/-- A step by which a call that has taken effect ends. -/
theorem Inv.finish {h : List (Event V)} {s : State V} {L} (I : Inv h s L) (i : Nat) (r : Resp V)
    (ht : Took (s.pc i)) (hh : ¬ Holds (s.pc i)) (hnd : s.pc i ≠ .done)
    (hf : ∀ op e, CalledAs (s.pc i) op → Agrees (s.pc i) e → Possible op e → Fits op r e) :
    Inv (h ++ [.res i r]) (s.at i .done) L := by
  refine ⟨I.fifo, I.once, ?_, ?_, ?_, ?_, ?_, ?_, ?_, ?_, ?_, ?_, ?_, ?_⟩
  · intro j e hj; have := I.lin j e hj; simp only [State.at]; split; trivial; exact this
  · intro j hj
    simp only [State.at] at hj
    split at hj
    · rename_i hji; subst hji; exact I.has _ ht
    · exact I.has j hj
  · intro j e hj; obtain ⟨o, ho, hp⟩ := I.poss j e hj; exact ⟨o, by simp [ho], hp⟩
  · intro j o r' h1 h2
    have h1' : Event.inv j o ∈ h := by simpa using h1
    rcases List.mem_append.1 h2 with h2 | h2
    · exact I.ended j o r' h1' h2
    · simp at h2
      obtain ⟨rfl, rfl⟩ := h2
      obtain ⟨e, he⟩ := I.has _ ht
      obtain ⟨o', ho', hp⟩ := I.poss _ e he
      obtain rfl := I.uniq _ _ _ h1' ho'
      exact ⟨e, he, hf _ _ (I.called _ _ h1') (I.lin _ _ he) hp⟩
  · intro j r' hj
    simp only [State.at]
    rcases List.mem_append.1 hj with hj | hj
    · have := I.resDone j r' hj; grind
    · simp at hj; simp [hj.1]
  · intro j o hj
    have hj' : Event.inv j o ∈ h := by simpa using hj
    have := I.called j o hj'
    simp only [State.at]; split; trivial; exact this
  · intro j o o' h1 h2; exact I.uniq j o o' (by simpa using h1) (by simpa using h2)
  · intro j hj
    have : s.pc j ≠ .unused := by
      simp only [State.at] at hj
      by_cases hji : j = i
      · subst hji; intro h0; rw [h0] at ht; exact ht
      · rwa [if_neg hji] at hj
    obtain ⟨o, ho⟩ := I.inFlight j this; exact ⟨o, by simp [ho]⟩
  · intro a b r' o eb hab hb
    rcases Before.snoc hab with hab | ⟨h1, -⟩
    · exact I.real a b r' o eb hab hb
    · simp at h1
  · intro j
    have := I.held j
    simp only [State.at]
    by_cases hji : j = i
    · subst hji
      simp only [if_true]
      exact ⟨fun h0 => absurd h0 (by simp [Holds]), fun h0 => absurd (this.2 h0) hh⟩
    · rw [if_neg hji]; exact this
  · intro j hj; have := I.seen j; simp only [State.at] at hj ⊢; grind
  · intro j; have := I.defined j; simp only [State.at]; grind

/-- `push` throws before it has touched the queue. -/
theorem Inv.rejected {h : List (Event V)} {s : State V} {L} (I : Inv h s L) (i : Nat) (x : V)
    (hp : s.pc i = .pushStart x) : Inv (h ++ [.res i .threw]) (s.at i .done) (L ++ [(i, .none)]) := by
  have hni : ∀ e', (i, e') ∉ L := by
    intro e' he'; have := I.lin i e' he'; rw [hp] at this; exact this
  have hnl : s.lock ≠ some i := by
    intro h0; have := (I.held i).2 h0; rw [hp] at this; exact this
  obtain ⟨op, hop⟩ := I.inFlight i (by rw [hp]; simp)
  have hopx := I.called i op hop
  rw [hp] at hopx
  simp only [CalledAs] at hopx
  subst hopx
  refine ⟨?_, ?_, ?_, ?_, ?_, ?_, ?_, ?_, ?_, ?_, ?_, ?_, ?_, ?_⟩
  · simpa [State.at] using Fifo.none I.fifo
  · simp only [List.map_append, List.map_cons, List.map_nil]
    rw [List.nodup_append]
    refine ⟨I.once, by simp, ?_⟩
    intro a ha b hb
    simp only [List.mem_map, Prod.exists, exists_and_right, exists_eq_right] at ha
    obtain ⟨e', ha⟩ := ha
    simp at hb
    rintro rfl
    subst hb
    exact hni _ ha
  · intro j e hj
    simp only [State.at]
    split
    · trivial
    · rename_i hji
      rcases List.mem_append.1 hj with hj | hj
      · exact I.lin j e hj
      · simp at hj; exact absurd hj.1 hji
  · intro j hj
    by_cases hji : j = i
    · subst hji; exact ⟨.none, by simp⟩
    · simp only [State.at, if_neg hji] at hj
      obtain ⟨e, he⟩ := I.has j hj; exact ⟨e, by simp [he]⟩
  · intro j e hj
    rcases List.mem_append.1 hj with hj | hj
    · obtain ⟨o, ho, hpp⟩ := I.poss j e hj; exact ⟨o, by simp [ho], hpp⟩
    · simp at hj; obtain ⟨rfl, rfl⟩ := hj; exact ⟨_, by simp [hop], .none x⟩
  · intro j o r' h1 h2
    have h1' : Event.inv j o ∈ h := by simpa using h1
    rcases List.mem_append.1 h2 with h2 | h2
    · obtain ⟨e, he, hf⟩ := I.ended j o r' h1' h2; exact ⟨e, by simp [he], hf⟩
    · simp at h2
      obtain ⟨rfl, rfl⟩ := h2
      obtain rfl := I.uniq _ _ _ h1' hop
      exact ⟨.none, by simp, .pushThrew x⟩
  · intro j r' hj
    simp only [State.at]
    rcases List.mem_append.1 hj with hj | hj
    · have := I.resDone j r' hj; grind
    · simp at hj; simp [hj.1]
  · intro j o hj
    have hj' : Event.inv j o ∈ h := by simpa using hj
    have := I.called j o hj'
    simp only [State.at]; split; trivial; exact this
  · intro j o o' h1 h2; exact I.uniq j o o' (by simpa using h1) (by simpa using h2)
  · intro j hj
    by_cases hji : j = i
    · subst hji; exact ⟨_, List.mem_append_left _ hop⟩
    · simp only [State.at, if_neg hji] at hj
      obtain ⟨o, ho⟩ := I.inFlight j hj; exact ⟨o, by simp [ho]⟩
  · intro a b r' o eb hab hb
    rcases Before.snoc hab with hab2 | ⟨h1, -⟩
    · rcases List.mem_append.1 hb with hb | hb
      · obtain ⟨ea, hea⟩ := I.real a b r' o eb hab2 hb; exact ⟨ea, Before.append hea _⟩
      · simp only [List.mem_singleton, Prod.mk.injEq] at hb
        obtain ⟨rfl, rfl⟩ := hb
        have hra : Event.res a r' ∈ h := by obtain ⟨l₁, l₂, l₃, hl⟩ := hab2; rw [hl]; simp
        have hda := I.resDone a r' hra
        obtain ⟨ea, hea⟩ := I.has a (by rw [hda]; trivial)
        exact ⟨ea, Before.of_mem hea _⟩
    · simp at h1
  · intro j
    have := I.held j
    simp only [State.at]
    by_cases hji : j = i
    · subst hji
      simp only [if_true]
      exact ⟨fun h0 => absurd h0 (by simp [Holds]), fun h0 => absurd h0 hnl⟩
    · rw [if_neg hji]; exact this
  · intro j hj; have := I.seen j; simp only [State.at] at hj ⊢; grind
  · intro j; have := I.defined j; simp only [State.at]; grind

theorem inv_step {h : List (Event V)} {s : State V} {L} (I : Inv h s L) {i : Nat} {a : Act V} {s' e}
    (hst : step s i a = some (s', e)) : ∃ L', Inv (h ++ e.toList) s' L' := by
  have hlk := I.held i
  unfold step at hst
  split at hst
  case h_1 x hp => simp at hst; obtain ⟨rfl, rfl⟩ := hst; exact ⟨L, I.call i _ _ hp rfl (by simp [Took]) (by simp [Holds]) (by simp) (by simp)⟩
  case h_2 hp => simp at hst; obtain ⟨rfl, rfl⟩ := hst; exact ⟨L, I.call i _ _ hp rfl (by simp [Took]) (by simp [Holds]) (by simp) (by simp)⟩
  case h_3 x hp =>
    simp at hst; obtain ⟨rfl, rfl⟩ := hst
    refine ⟨L, ?_⟩
    simp only [Option.toList_none, Option.toList_some, List.append_nil]
    refine I.quiet i (.pushNode x) s.lock ?_ ?_ ?_ ?_ ?_ ?_ ?_ ?_ <;> try simp [hp, Took, Agrees, CalledAs]
    intro j; have := I.held j; split
    · rename_i hji; subst hji; rw [← this, hp]; simp [Holds]
    · exact this
  case h_4 x hp => simp at hst; obtain ⟨rfl, rfl⟩ := hst; exact ⟨_, I.rejected i x hp⟩
  case h_5 x hp =>
    split at hst <;> simp at hst; rename_i hl; obtain ⟨rfl, rfl⟩ := hst
    refine ⟨L, ?_⟩
    simp only [Option.toList_none, Option.toList_some, List.append_nil]
    refine I.quiet i (.pushHeld x) (some i) ?_ ?_ ?_ ?_ ?_ ?_ ?_ ?_ <;> try simp [hp, Took, Agrees, CalledAs]
    intro j; have := I.held j; split
    · rename_i hji; simp [Holds, hji]
    · rename_i hji; rw [this, hl]; simp; omega
  case h_6 x hp =>
    simp at hst; obtain ⟨rfl, rfl⟩ := hst
    refine ⟨L ++ [(i, .added x)], ?_⟩
    simp only [Option.toList_none, Option.toList_some, List.append_nil]
    refine I.commit i .pushSpliced (s.q ++ [x]) (.added x) (.added x I.fifo) ?_ ?_ ?_ ?_ ?_ ?_ ?_ ?_ <;> try simp [hp, Took, Agrees, CalledAs, Holds]
    exact .added x
  case h_7 hp =>
    simp at hst; obtain ⟨rfl, rfl⟩ := hst
    refine ⟨L, ?_⟩
    simp only [Option.toList_none, Option.toList_some, List.append_nil]
    refine I.quiet i .pushFree none ?_ ?_ ?_ ?_ ?_ ?_ ?_ ?_ <;> try simp [hp, Took, Agrees, CalledAs]
    intro j; have := I.held j; split
    · simp [Holds]
    · rename_i hji
      rw [hp] at hlk; have := hlk.1 trivial; simp_all; omega
  case h_8 hp =>
    simp at hst; obtain ⟨rfl, rfl⟩ := hst
    refine ⟨L, ?_⟩
    simp only [Option.toList_none, Option.toList_some, List.append_nil]
    refine I.finish i .pushed ?_ ?_ ?_ ?_ <;> try simp [hp, Took, Agrees, CalledAs, Holds]
    rintro op x x' rfl e rfl hp'; cases hp'; exact .push _
  case h_9 hp =>
    split at hst <;> simp at hst; rename_i hl; obtain ⟨rfl, rfl⟩ := hst
    refine ⟨L, ?_⟩
    simp only [Option.toList_none, Option.toList_some, List.append_nil]
    refine I.quiet i .popHeld (some i) ?_ ?_ ?_ ?_ ?_ ?_ ?_ ?_ <;> try simp [hp, Took, Agrees, CalledAs]
    intro j; have := I.held j; split
    · rename_i hji; simp [Holds, hji]
    · rename_i hji; rw [this, hl]; simp; omega
  case h_10 hp =>
    split at hst
    · rename_i hq
      simp at hst; obtain ⟨rfl, rfl⟩ := hst
      have hf : Fifo (L.map Prod.snd ++ [.sawEmpty]) s.q := by have := I.fifo; rw [hq] at this ⊢; exact .sawEmpty this
      refine ⟨L ++ [(i, .sawEmpty)], ?_⟩
      simp only [Option.toList_none, Option.toList_some, List.append_nil]
      refine I.commit i (.popLocked none) s.q .sawEmpty hf ?_ ?_ ?_ ?_ ?_ ?_ ?_ ?_ <;> try simp [hp, Took, Agrees, CalledAs, Holds, effectOf]
      exact .sawEmpty
    · rename_i hq
      simp at hst; obtain ⟨rfl, rfl⟩ := hst
      refine ⟨L, ?_⟩
      simp only [Option.toList_none, Option.toList_some, List.append_nil]
      refine I.quiet i .popSeen s.lock ?_ ?_ ?_ ?_ ?_ ?_ ?_ ?_ <;> try simp [hp, hq, Took, Agrees, CalledAs]
      intro j; have := I.held j; split
      · rename_i hji; subst hji; rw [← this, hp]; simp [Holds]
      · exact this
  case h_11 hp =>
    split at hst
    · rename_i hq; exact absurd hq (I.seen i hp)
    · rename_i x r hq
      simp at hst; obtain ⟨rfl, rfl⟩ := hst
      have hf : Fifo (L.map Prod.snd ++ [.took x]) r := by have := I.fifo; rw [hq] at this; exact .took x this
      refine ⟨L ++ [(i, .took x)], ?_⟩
      simp only [Option.toList_none, Option.toList_some, List.append_nil]
      refine I.commit i (.popLocked (some x)) r (.took x) hf ?_ ?_ ?_ ?_ ?_ ?_ ?_ ?_ <;> try simp [hp, Took, Agrees, CalledAs, Holds, effectOf]
      exact .took x
  case h_12 t hp =>
    simp at hst; obtain ⟨rfl, rfl⟩ := hst
    refine ⟨L, ?_⟩
    simp only [Option.toList_none, Option.toList_some, List.append_nil]
    refine I.quiet i (.popFree t) none ?_ ?_ ?_ ?_ ?_ ?_ ?_ ?_ <;> try simp [hp, Took, Agrees, CalledAs]
    intro j; have := I.held j; split
    · simp [Holds]
    · rename_i hji
      rw [hp] at hlk; have := hlk.1 trivial; simp_all; omega
  case h_13 hp =>
    simp at hst; obtain ⟨rfl, rfl⟩ := hst
    refine ⟨L, ?_⟩
    simp only [Option.toList_none, Option.toList_some, List.append_nil]
    refine I.finish i .nothing ?_ ?_ ?_ ?_ <;> try simp [hp, Took, Agrees, CalledAs, Holds]
    intro _; exact .popEmpty
  case h_14 x hp =>
    simp at hst; obtain ⟨rfl, rfl⟩ := hst
    refine ⟨L, ?_⟩
    simp only [Option.toList_none, Option.toList_some, List.append_nil]
    refine I.finish i (.popped x) ?_ ?_ ?_ ?_ <;> try simp [hp, Took, Agrees, CalledAs, Holds]
    intro _; exact .pop x
  case h_15 x hp =>
    simp at hst; obtain ⟨rfl, rfl⟩ := hst
    refine ⟨L, ?_⟩
    simp only [Option.toList_none, Option.toList_some, List.append_nil]
    refine I.finish i .threw ?_ ?_ ?_ ?_ <;> try simp [hp, Took, Agrees, CalledAs, Holds]
    intro _; exact .popThrew x
  case h_16 => simp at hst

theorem exec_inv {h : List (Event V)} {s : State V} (hx : Exec h s) : ∃ L, Inv h s L := by
  induction hx with
  | init => exact ⟨[], inv_init⟩
  | step _ hst ih => obtain ⟨L, I⟩ := ih; exact inv_step I hst

/-! ### The theorems -/

/-- **C88** – whatever the schedule, the calls of `push` and `pop` that the clients observe can be put in one sequence that
respects the order of calls that do not overlap, and in which the object behaves like a sequential FIFO queue; every
completed call appears exactly once in it, with an effect that explains its result. -/
theorem C88_linearizable {h : List (Event V)} {s : State V} (hx : Exec h s) :
    ∃ L, Linearization h L ∧ ∃ q, Fifo (L.map Prod.snd) q := by
  obtain ⟨L, I⟩ := exec_inv hx
  exact ⟨L, ⟨I.once, I.poss, I.ended, I.real⟩, _, I.fifo⟩

/-- Values that were added, in order. -/
def Spec.added (es : List (Effect V)) : List V := es.filterMap fun | .added x => some x | _ => none

/-- Values that were taken, in order. -/
def Spec.taken (es : List (Effect V)) : List V := es.filterMap fun | .took x => some x | _ => none

/-- **C88** – what the sequential specification means: the values taken are the values added, in the same order, without
the last ones, which are the content. -/
theorem C88_fifo_meaning {es : List (Effect V)} {q : List V} (hf : Fifo es q) : added es = taken es ++ q := by
  induction hf with
  | nil => rfl
  | added x _ ih => simp_all [added, taken]
  | took x _ ih => simp_all [added, taken]
  | sawEmpty _ ih => simp_all [added, taken]
  | none _ ih => simp_all [added, taken]

/-! ### Consequences in plain terms -/

theorem before_filterMap {α β : Type} {f : α → Option β} {l : List α} {x y : β} (hb : Before x y (l.filterMap f)) :
    ∃ a b, Before a b l ∧ f a = some x ∧ f b = some y := by
  obtain ⟨l₁, l₂, l₃, hb⟩ := hb
  rw [List.append_assoc] at hb
  obtain ⟨m₁, m₂, rfl, h1, h2⟩ := List.filterMap_eq_append_iff.1 hb
  obtain ⟨m₃, a, m₄, rfl, h3, h4, h5⟩ := List.filterMap_eq_cons_iff.1 h2
  obtain ⟨m₅, m₆, rfl, h6, h7⟩ := List.filterMap_eq_append_iff.1 h5
  obtain ⟨m₇, b, m₈, rfl, h8, h9, h10⟩ := List.filterMap_eq_cons_iff.1 h7
  exact ⟨a, b, ⟨m₁ ++ m₃, m₅ ++ m₇, m₈, by simp⟩, h4, h9⟩

/-- Each call of `push` passes another value. -/
def Spec.DistinctPushes (h : List (Event V)) : Prop :=
  ∀ i j x, .inv i (.push x) ∈ h → .inv j (.push x) ∈ h → i = j

theorem mem_added {L : List (Nat × Effect V)} {x : V} : x ∈ added (L.map Prod.snd) ↔ ∃ i, (i, .added x) ∈ L := by
  simp only [added, List.mem_filterMap, List.mem_map, Prod.exists, exists_eq_right]
  constructor
  · rintro ⟨e, ⟨i, hi⟩, he⟩
    cases e <;> simp at he
    subst he; exact ⟨i, hi⟩
  · rintro ⟨i, hi⟩; exact ⟨_, ⟨i, hi⟩, rfl⟩

theorem nodup_values {L : List (Nat × Effect V)} (f : Effect V → Option V)
    (hn : (L.map Prod.fst).Nodup)
    (hu : ∀ i j e e' x, (i, e) ∈ L → (j, e') ∈ L → f e = some x → f e' = some x → i = j) :
    ((L.map Prod.snd).filterMap f).Nodup := by
  induction L with
  | nil => simp
  | cons p L ih =>
    obtain ⟨i, e⟩ := p
    simp only [List.map_cons, List.nodup_cons] at hn
    have ih' := ih hn.2 (fun a b e e' x ha hb => hu a b e e' x (by simp [ha]) (by simp [hb]))
    simp only [List.map_cons, List.filterMap_cons]
    split
    · exact ih'
    · rename_i x hx
      rw [List.nodup_cons]
      refine ⟨?_, ih'⟩
      intro hm
      simp only [List.mem_filterMap, List.mem_map, Prod.exists, exists_eq_right] at hm
      obtain ⟨e', ⟨j, hj⟩, he'⟩ := hm
      have := hu i j e e' x (by simp) (by simp [hj]) hx he'
      subst this
      exact hn.1 (List.mem_map_of_mem (f := Prod.fst) hj)

theorem unique_of_nodup {L : List (Nat × Effect V)} {f : Effect V → Option V}
    (hn : ((L.map Prod.snd).filterMap f).Nodup) {i j e e' x} (hi : (i, e) ∈ L) (hj : (j, e') ∈ L) (he : f e = some x)
    (he' : f e' = some x) : i = j ∧ e = e' := by
  induction L with
  | nil => simp at hi
  | cons p L ih =>
    simp only [List.map_cons, List.filterMap_cons] at hn
    have memx : ∀ k e'', (k, e'') ∈ L → f e'' = some x → x ∈ (L.map Prod.snd).filterMap f := by
      intro k e'' hk hf
      exact List.mem_filterMap.2 ⟨e'', List.mem_map.2 ⟨(k, e''), hk, rfl⟩, hf⟩
    rcases List.mem_cons.1 hi with h1 | h1 <;> rcases List.mem_cons.1 hj with h2 | h2
    · rw [← h1] at h2; simp at h2; exact ⟨h2.1.symm, h2.2.symm⟩
    · subst h1; simp only [he, List.nodup_cons] at hn; exact absurd (memx _ _ h2 he') hn.1
    · subst h2; simp only [he', List.nodup_cons] at hn; exact absurd (memx _ _ h1 he) hn.1
    · refine ih ?_ h1 h2
      split at hn
      · exact hn
      · exact (List.nodup_cons.1 hn).2

theorem same_effect {L : List (Nat × Effect V)} (hn : (L.map Prod.fst).Nodup) {i e e'} (h1 : (i, e) ∈ L)
    (h2 : (i, e') ∈ L) : e = e' := by
  induction L with
  | nil => simp at h1
  | cons p M ih =>
    simp only [List.map_cons, List.nodup_cons, List.mem_map, not_exists, not_and] at hn
    rcases List.mem_cons.1 h1 with h1 | h1 <;> rcases List.mem_cons.1 h2 with h2 | h2
    · rw [← h1] at h2; simp at h2; exact h2.symm
    · exact absurd (by rw [← h1]) (hn.1 _ h2)
    · exact absurd (by rw [← h2]) (hn.1 _ h1)
    · exact ih hn.2 h1 h2

/-- What the order of a linearization says about time. -/
theorem Linearization.not_after {h : List (Event V)} {L : List (Nat × Effect V)} (hL : Linearization h L) {i j ei ej}
    (hb : Before (i, ei) (j, ej) L) (r : Resp V) (op : Op V) : ¬ Before (.res j r) (.inv i op) h := by
  intro hh
  have hmi : (i, ei) ∈ L := by obtain ⟨a, b, c, rfl⟩ := hb; simp
  obtain ⟨ej', hb'⟩ := hL.realTime j i r op ei hh hmi
  obtain ⟨a, b, c, e1⟩ := hb
  obtain ⟨a', b', c', e2⟩ := hb'
  have hn := hL.once
  have e3 : (L.map Prod.fst) = a.map Prod.fst ++ i :: (b.map Prod.fst ++ j :: c.map Prod.fst) := by rw [e1]; simp
  have e4 : (L.map Prod.fst) = a'.map Prod.fst ++ j :: (b'.map Prod.fst ++ i :: c'.map Prod.fst) := by rw [e2]; simp
  have i3 : (L.map Prod.fst).idxOf i < (L.map Prod.fst).idxOf j := by
    rw [e3] at hn ⊢
    have hd := List.nodup_append.1 hn
    have hia : i ∉ a.map Prod.fst := fun h0 => hd.2.2 _ h0 _ (by simp) rfl
    have hja : j ∉ a.map Prod.fst := fun h0 => hd.2.2 _ h0 _ (by simp) rfl
    have hij : i ≠ j := by rintro rfl; simp at hd
    rw [List.idxOf_append, List.idxOf_append, if_neg hia, if_neg hja, List.idxOf_cons_self, List.idxOf_cons, beq_eq_false_iff_ne.2 hij]
    simp only [cond_false]
    omega
  have i4 : (L.map Prod.fst).idxOf j < (L.map Prod.fst).idxOf i := by
    rw [e4] at hn ⊢
    have hd := List.nodup_append.1 hn
    have hia : j ∉ a'.map Prod.fst := fun h0 => hd.2.2 _ h0 _ (by simp) rfl
    have hja : i ∉ a'.map Prod.fst := fun h0 => hd.2.2 _ h0 _ (by simp) rfl
    have hij : j ≠ i := by rintro rfl; simp at hd
    rw [List.idxOf_append, List.idxOf_append, if_neg hia, if_neg hja, List.idxOf_cons_self, List.idxOf_cons, beq_eq_false_iff_ne.2 hij]
    simp only [cond_false]
    omega
  omega

/-- **C88** – `pop` returns only what was passed to a `push` that had begun, when every value is pushed by one call no two
calls of `pop` return the same value, and values leave in the order in which non-overlapping calls of `push` put them in: when
`push(x)` ended before `push(y)` began and `y` came out, then a `pop` took `x` too, and that call did not begin after
the `pop` of `y` had ended. -/
theorem C88_exactly_once_in_order {h : List (Event V)} {s : State V} (hx : Exec h s) :
    (∀ k x, .inv k .pop ∈ h → .res k (.popped x) ∈ h → ∃ i, .inv i (.push x) ∈ h) ∧
    (DistinctPushes h → ∀ k k' x, .inv k .pop ∈ h → .inv k' .pop ∈ h →
      .res k (.popped x) ∈ h → .res k' (.popped x) ∈ h → k = k') ∧
    (DistinctPushes h → ∀ i j k x y, .inv i (.push x) ∈ h → .inv j (.push y) ∈ h →
      Before (.res i .pushed) (.inv j (.push y)) h → .inv k .pop ∈ h → .res k (.popped y) ∈ h →
      ∃ k', .inv k' .pop ∈ h ∧ (∀ r, .res k' r ∈ h → r = .popped x ∨ r = .threw) ∧
        ∀ r op, ¬ Before (.res k r) (.inv k' op) h) := by
  obtain ⟨L, hL, q, hf⟩ := C88_linearizable hx
  have hm := C88_fifo_meaning hf
  have took_of : ∀ k x, .inv k .pop ∈ h → .res k (.popped x) ∈ h → (k, .took x) ∈ L := by
    intro k x h1 h2
    obtain ⟨e, h3, h4⟩ := hL.ended k _ _ h1 h2
    cases h4; exact h3
  have taken_mem : ∀ k x, (k, .took x) ∈ L → x ∈ taken (L.map Prod.snd) := by
    intro k x hk
    exact List.mem_filterMap.2 ⟨.took x, List.mem_map.2 ⟨_, hk, rfl⟩, rfl⟩
  have added_called : ∀ i x, (i, .added x) ∈ L → .inv i (.push x) ∈ h := by
    intro i x hi
    obtain ⟨op, h1, h2⟩ := hL.called _ _ hi
    cases h2; exact h1
  have nodupA : DistinctPushes h → (added (L.map Prod.snd)).Nodup := by
    intro hd
    refine nodup_values _ hL.once ?_
    intro i j e e' x hi hj he he'
    cases e <;> simp at he
    cases e' <;> simp at he'
    subst he; subst he'
    exact hd i j _ (added_called _ _ hi) (added_called _ _ hj)
  refine ⟨?_, ?_, ?_⟩
  · intro k x h1 h2
    have : x ∈ added (L.map Prod.snd) := by rw [hm]; exact List.mem_append_left _ (taken_mem k x (took_of k x h1 h2))
    obtain ⟨i, hi⟩ := mem_added.1 this
    exact ⟨i, added_called i x hi⟩
  · intro hd k k' x h1 h1' h2 h2'
    have hn := nodupA hd
    rw [hm, List.nodup_append] at hn
    exact (unique_of_nodup hn.1 (took_of k x h1 h2) (took_of k' x h1' h2') rfl rfl).1
  · intro hd i j k x y hi hj hij hk hk'
    have hn := nodupA hd
    have hy := took_of k y hk hk'
    have hyt := taken_mem k y hy
    -- the two elements in the linearization
    have hyA : y ∈ added (L.map Prod.snd) := by rw [hm]; exact List.mem_append_left _ hyt
    obtain ⟨j', hj'⟩ := mem_added.1 hyA
    obtain rfl := hd _ _ _ (added_called j' y hj') hj
    obtain ⟨ei, hb⟩ := hL.realTime i j' _ _ _ hij hj'
    have hei : (i, .added x) ∈ L := by
      have hres : Event.res i .pushed ∈ h := by obtain ⟨a, b, c, hl⟩ := hij; rw [hl]; simp
      obtain ⟨e, h3, h4⟩ := hL.ended i _ _ hi hres
      cases h4; exact h3
    obtain rfl : ei = .added x := by
      have hmi : (i, ei) ∈ L := by obtain ⟨a, b, c, hl⟩ := hb; rw [hl]; simp
      exact same_effect hL.once hmi hei
    -- the values in the sequence of pushes
    obtain ⟨a, b, c, hl⟩ := hb
    have hadd : ∃ A B C, added (L.map Prod.snd) = A ++ x :: (B ++ y :: C) := by
      refine ⟨added (a.map Prod.snd), added (b.map Prod.snd), added (c.map Prod.snd), ?_⟩
      rw [hl]; simp [added]
    obtain ⟨A, B, C, hABC⟩ := hadd
    have hxy : Before x y (taken (L.map Prod.snd)) := by
      have e := hm
      rw [hABC] at e
      obtain ⟨t₁, t₂, ht⟩ := List.append_of_mem hyt
      rw [ht] at e
      have hn' := hn
      rw [hABC] at hn'
      have e' : (A ++ x :: B) ++ y :: C = t₁ ++ y :: (t₂ ++ q) := by simpa using e
      have hn1 : y ∉ A ++ x :: B := by
        have : ((A ++ x :: B) ++ y :: C).Nodup := by simpa using hn'
        have h0 := List.nodup_append.1 this
        exact fun h1 => h0.2.2 _ h1 _ (by simp) rfl
      have hn2 : y ∉ t₁ := by
        have : ((A ++ x :: B) ++ y :: C).Nodup := by simpa using hn'
        rw [e'] at this
        have h0 := List.nodup_append.1 this
        exact fun h1 => h0.2.2 _ h1 _ (by simp) rfl
      have : A ++ x :: B = t₁ := by
        clear e ht hn' hn hABC hm
        revert e' hn1 hn2
        generalize A ++ x :: B = P
        intro e' hn1 hn2
        induction P generalizing t₁ with
        | nil =>
          cases t₁ with
          | nil => rfl
          | cons z t₁ => simp at e'; exact absurd (by simp [e'.1]) hn2
        | cons w P ih =>
          cases t₁ with
          | nil => simp at e'; exact absurd (by simp [e'.1]) hn1
          | cons z t₁ =>
            simp at e'
            rw [e'.1, ih (t₁ := t₁) (by simpa using e'.2) (by simp at hn1; simp [hn1]) (by simp at hn2; simp [hn2])]
      rw [ht, ← this]
      exact ⟨A, B, t₂, by simp⟩
    have hnT : (taken (L.map Prod.snd)).Nodup := by rw [hm, List.nodup_append] at hn; exact hn.1
    unfold taken at hxy
    rw [List.filterMap_map] at hxy
    obtain ⟨⟨k₁, e₁⟩, ⟨k₂, e₂⟩, hbk, h1, h2⟩ := before_filterMap hxy
    simp only [Function.comp] at h1 h2
    obtain rfl : e₁ = .took x := by cases e₁ <;> simp_all
    obtain rfl : e₂ = .took y := by cases e₂ <;> simp_all
    have hk₁ : (k₁, .took x) ∈ L := by obtain ⟨a, b, c, hl⟩ := hbk; rw [hl]; simp
    have hk₂ : (k₂, .took y) ∈ L := by obtain ⟨a, b, c, hl⟩ := hbk; rw [hl]; simp
    obtain rfl := (unique_of_nodup hnT hk₂ hy rfl rfl).1
    obtain ⟨op, ho, hpo⟩ := hL.called _ _ hk₁
    cases hpo
    refine ⟨k₁, ho, ?_, fun r op => Linearization.not_after hL hbk r op⟩
    intro r hr
    obtain ⟨e, he, hfit⟩ := hL.ended _ _ _ ho hr
    have hsame := same_effect hL.once he hk₁
    subst hsame
    cases hfit
    · exact .inl rfl
    · exact .inr rfl

/-- **C88** – no call reads the front of an empty list, whatever the schedule. -/
theorem C88_no_undefined_behaviour {h : List (Event V)} {s : State V} (hx : Exec h s) (i : Nat) : s.pc i ≠ .undefined := by
  obtain ⟨L, I⟩ := exec_inv hx
  exact I.defined i

/-- `Reaches s s'`: calls that are in flight lead from `s` to `s'`; no new call is made. -/
inductive Reaches : State V → State V → Prop where
  | refl (s) : Reaches s s
  | step {s s' s'' i a e} : s.pc i ≠ .unused → step s i a = some (s', e) → Reaches s' s'' → Reaches s s''

theorem Reaches.trans {s s' s'' : State V} (h : Reaches s s') (h' : Reaches s' s'') : Reaches s s'' := by
  induction h with
  | refl => exact h'
  | step a b _ ih => exact .step a b (ih h')

/-- Steps to the end for a call which does not wait for the lock. -/
def rank : PC V → Nat
  | .unused => 0
  | .pushStart _ => 5 | .pushNode _ => 4 | .pushHeld _ => 3 | .pushSpliced => 2 | .pushFree => 1
  | .popStart => 5 | .popHeld => 4 | .popSeen => 3 | .popLocked _ => 2 | .popFree _ => 1
  | .done => 0 | .undefined => 0

/-- A call that holds the lock gives it back, and no other call moves. -/
theorem holder_releases (n : Nat) : ∀ {s : State V} {i : Nat}, rank (s.pc i) ≤ n → Holds (s.pc i) →
    (s.pc i = .popSeen → s.q ≠ []) → s.lock = some i →
    ∃ s', Reaches s s' ∧ s'.lock = none ∧ ∀ j, j ≠ i → s'.pc j = s.pc j := by
  induction n with
  | zero => intro s i hr hh _ _; cases hp : s.pc i <;> simp_all [rank, Holds]
  | succ n ih =>
    intro s i hr hh hs hl
    cases hp : s.pc i <;> simp only [hp, Holds] at hh
    case pushHeld x =>
      obtain ⟨s', h1, h2, h3⟩ := @ih ({ s with q := s.q ++ [x] }.at i .pushSpliced) i
        (by simp [State.at, rank]; simp [hp, rank] at hr; omega) (by simp [State.at, Holds]) (by simp [State.at]) (by simpa [State.at] using hl)
      refine ⟨s', .step (i := i) (a := .access) (e := none) (by simp [hp]) (by simp [step, hp]) h1, h2, ?_⟩
      intro j hj; rw [h3 j hj]; simp [State.at, hj]
    case pushSpliced =>
      refine ⟨_, .step (i := i) (a := .release) (e := none) (by simp [hp]) (by simp [step, hp]; rfl) (.refl _), rfl, ?_⟩
      intro j hj; simp [State.at, hj]
    case popHeld =>
      cases hq : s.q with
      | nil =>
        obtain ⟨s', h1, h2, h3⟩ := @ih (s.at i (.popLocked none)) i
          (by simp [State.at, rank]; simp [hp, rank] at hr; omega) (by simp [State.at, Holds]) (by simp [State.at]) (by simpa [State.at] using hl)
        refine ⟨s', .step (i := i) (a := .access) (e := none) (by simp [hp]) (by simp [step, hp, hq]) h1, h2, ?_⟩
        intro j hj; rw [h3 j hj]; simp [State.at, hj]
      | cons x r =>
        obtain ⟨s', h1, h2, h3⟩ := @ih (s.at i .popSeen) i
          (by simp [State.at, rank]; simp [hp, rank] at hr; omega) (by simp [State.at, Holds]) (by simp [State.at, hq]) (by simpa [State.at] using hl)
        refine ⟨s', .step (i := i) (a := .access) (e := none) (by simp [hp]) (by simp [step, hp, hq]) h1, h2, ?_⟩
        intro j hj; rw [h3 j hj]; simp [State.at, hj]
    case popSeen =>
      cases hq : s.q with
      | nil => exact absurd hq (hs hp)
      | cons x r =>
        obtain ⟨s', h1, h2, h3⟩ := @ih ({ s with q := r }.at i (.popLocked (some x))) i
          (by simp [State.at, rank]; simp [hp, rank] at hr; omega) (by simp [State.at, Holds]) (by simp [State.at]) (by simpa [State.at] using hl)
        refine ⟨s', .step (i := i) (a := .access) (e := none) (by simp [hp]) (by simp [step, hp, hq]) h1, h2, ?_⟩
        intro j hj; rw [h3 j hj]; simp [State.at, hj]
    case popLocked t =>
      refine ⟨_, .step (i := i) (a := .release) (e := none) (by simp [hp]) (by simp [step, hp]; rfl) (.refl _), rfl, ?_⟩
      intro j hj; simp [State.at, hj]

/-- A call in flight ends when it is the only one to move, and the lock is its own or free. -/
theorem alone_finishes (n : Nat) : ∀ {s : State V} {i : Nat}, rank (s.pc i) ≤ n → s.pc i ≠ .unused → s.pc i ≠ .undefined →
    (s.pc i = .popSeen → s.q ≠ []) → (¬ Holds (s.pc i) → s.lock = none) → ∃ s', Reaches s s' ∧ s'.pc i = .done := by
  induction n with
  | zero =>
    intro s i hr hu hd _ _
    refine ⟨s, .refl _, ?_⟩
    cases hp : s.pc i <;> simp_all [rank]
  | succ n ih =>
    intro s i hr hu hd hs hl
    have go : ∀ (a : Act V) (s' : State V) (e : Option (Event V)), step s i a = some (s', e) →
        rank (s'.pc i) < rank (s.pc i) → s'.pc i ≠ .unused → s'.pc i ≠ .undefined →
        (s'.pc i = .popSeen → s'.q ≠ []) → (¬ Holds (s'.pc i) → s'.lock = none) → ∃ s'', Reaches s s'' ∧ s''.pc i = .done := by
      intro a s' e hst hlt h1 h2 h3 h4
      obtain ⟨s'', h5, h6⟩ := @ih s' i (by omega) h1 h2 h3 h4
      exact ⟨s'', .step hu hst h5, h6⟩
    cases hp : s.pc i
    case unused => exact absurd hp hu
    case undefined => exact absurd hp hd
    case done => exact ⟨s, .refl _, hp⟩
    case pushStart x =>
      refine go .alloc (s.at i (.pushNode x)) none (by simp [step, hp]) ?_ ?_ ?_ ?_ ?_ <;> simp [State.at, hp, rank]
      intro _; exact hl (by simp [hp, Holds])
    case pushNode x =>
      refine go .acquire ({ s with lock := some i }.at i (.pushHeld x)) none (by simp [step, hp, hl (by simp [hp, Holds])]) ?_ ?_ ?_ ?_ ?_ <;> simp [State.at, hp, rank, Holds]
    case pushHeld x =>
      refine go .access ({ s with q := s.q ++ [x] }.at i .pushSpliced) none (by simp [step, hp]) ?_ ?_ ?_ ?_ ?_ <;> simp [State.at, hp, rank, Holds]
    case pushSpliced =>
      refine go .release ({ s with lock := none }.at i .pushFree) none (by simp [step, hp]) ?_ ?_ ?_ ?_ ?_ <;> simp [State.at, hp, rank, Holds]
    case pushFree =>
      refine go .finish (s.at i .done) (some (.res i .pushed)) (by simp [step, hp]) ?_ ?_ ?_ ?_ ?_ <;> simp [State.at, hp, rank, Holds]
      exact hl (by simp [hp, Holds])
    case popStart =>
      refine go .acquire ({ s with lock := some i }.at i .popHeld) none (by simp [step, hp, hl (by simp [hp, Holds])]) ?_ ?_ ?_ ?_ ?_ <;> simp [State.at, hp, rank, Holds]
    case popHeld =>
      cases hq : s.q with
      | nil => refine go .access (s.at i (.popLocked none)) none (by simp [step, hp, hq]) ?_ ?_ ?_ ?_ ?_ <;> simp [State.at, hp, rank, Holds]
      | cons x r => refine go .access (s.at i .popSeen) none (by simp [step, hp, hq]) ?_ ?_ ?_ ?_ ?_ <;> simp [State.at, hp, hq, rank, Holds]
    case popSeen =>
      cases hq : s.q with
      | nil => exact absurd hq (hs hp)
      | cons x r => refine go .access ({ s with q := r }.at i (.popLocked (some x))) none (by simp [step, hp, hq]) ?_ ?_ ?_ ?_ ?_ <;> simp [State.at, hp, rank, Holds]
    case popLocked t =>
      refine go .release ({ s with lock := none }.at i (.popFree t)) none (by simp [step, hp]) ?_ ?_ ?_ ?_ ?_ <;> simp [State.at, hp, rank, Holds]
    case popFree t =>
      have hl' := hl (by simp [hp, Holds])
      cases t with
      | none => refine go .finish (s.at i .done) (some (.res i .nothing)) (by simp [step, hp]) ?_ ?_ ?_ ?_ ?_ <;> simp [State.at, hp, rank, Holds, hl']
      | some x => refine go .finish (s.at i .done) (some (.res i (.popped x))) (by simp [step, hp]) ?_ ?_ ?_ ?_ ?_ <;> simp [State.at, hp, rank, Holds, hl']

/-- **C88** – no call can be locked out for ever by calls that are already in flight: whatever has happened, every call in
flight can still come to its end without any new call. -/
theorem C88_no_deadlock {h : List (Event V)} {s : State V} (hx : Exec h s) (i : Nat) (hi : s.pc i ≠ .unused) :
    ∃ s', Reaches s s' ∧ s'.pc i = .done := by
  obtain ⟨L, I⟩ := exec_inv hx
  by_cases hh : Holds (s.pc i)
  · exact alone_finishes _ (Nat.le_refl _) hi (I.defined i) (I.seen i) (fun h0 => absurd hh h0)
  · cases hl : s.lock with
    | none => exact alone_finishes _ (Nat.le_refl _) hi (I.defined i) (I.seen i) (fun _ => hl)
    | some k =>
      have hk := (I.held k).2 hl
      obtain ⟨s', h1, h2, h3⟩ := holder_releases _ (Nat.le_refl _) hk (I.seen k) hl
      have hik : i ≠ k := by rintro rfl; exact hh hk
      have hpi := h3 i hik
      obtain ⟨s'', h4, h5⟩ := alone_finishes _ (Nat.le_refl _) (s := s') (i := i) (by rw [hpi]; exact hi)
        (by rw [hpi]; exact I.defined i)
        (by rw [hpi]; intro h0; exact absurd (by rw [h0]; trivial) hh) (fun _ => h2)
      exact ⟨s'', h1.trans h4, h5⟩

end Verif.ConcQueue

import Verif.Xml.Safe
/-!
More rounds give the same result.
-/
namespace Verif.Xml
open Verif.XmlAttr (Mem Tok Attr tokenRangeEqual)

variable {c : Cfg} {α β : Type}

/-- `y` does the same as `x`, where `x` comes to an end. -/
def Le (x y : M α) : Prop := ∀ s, x s = .stuck ∨ y s = x s

theorem Le.refl (x : M α) : Le x x := fun _ => .inr rfl

theorem Le.stuck (y : M α) : Le Verif.Xml.stuck y := fun _ => .inl rfl

theorem Le.bind {x y : M α} {f g : α → M β} (h : Le x y) (hf : ∀ a, Le (f a) (g a)) : Le (x >>= f) (y >>= g) := by
  intro s
  simp only [bind_eq]
  rcases h s with e | e
  · left; rw [e]
  · rw [e]
    cases x s with
    | ok a s' => exact hf a s'
    | throw => right; rfl
    | ub => right; rfl
    | stuck => right; rfl

theorem Le.bindR {x : M α} {f g : α → M β} (hf : ∀ a, Le (f a) (g a)) : Le (x >>= f) (x >>= g) := (Le.refl x).bind hf

theorem Le.sub {x y : M Unit} (h : Le x y) (r : Tok) : Le (subParse r x) (subParse r y) := by
  intro s
  unfold subParse
  rcases h { s with lx := Lx.new r, preorder := false } with e | e
  · left; rw [e]
  · right; rw [e]

theorem Le.ite {p : Prop} [Decidable p] {x x' y y' : M α} (h1 : Le x x') (h2 : Le y y') :
    Le (if p then x else y) (if p then x' else y') := by split <;> assumption

theorem attributeSet_mono (n : Nat) : ∀ set, Le (isAttributeSet c n set) (isAttributeSet c (n + 1) set) := by
  induction n with
  | zero => intro set; exact .stuck _
  | succ n ih =>
    intro set
    unfold isAttributeSet
    refine .bindR fun a => ?_
    cases a with
    | none => exact .refl _
    | some a =>
      dsimp only
      cases XmlAttr.insert c.mem set a with
      | none => exact .refl _
      | some s => exact ih s

structure Mono (c : Cfg) (n : Nat) : Prop where
  callback : ∀ o s a x p, Le (contentCallback c n o s a x p) (contentCallback c (n + 1) o s a x p)
  element : Le (isElement c n) (isElement c (n + 1))
  content : Le (isContent c n) (isContent c (n + 1))
  loop : ∀ x, Le (contentLoop c n x) (contentLoop c (n + 1) x)
  tail : ∀ x, Le (contentTail c n x) (contentTail c (n + 1) x)
  parse : Le (parseContent c n) (parseContent c (n + 1))
  parseLoop : Le (parseContentLoop c n) (parseContentLoop c (n + 1))

theorem mono (c : Cfg) (n : Nat) : Mono c n := by
  induction n with
  | zero =>
    constructor
    · intro o s a x p; unfold contentCallback; exact .stuck _
    · unfold isElement; exact .stuck _
    · unfold isContent; exact .stuck _
    · intro x; unfold contentLoop; exact .stuck _
    · intro x; unfold contentTail; exact .stuck _
    · unfold parseContent; exact .stuck _
    · unfold parseContentLoop; exact .stuck _
  | succ n ih =>
    constructor
    · intro o s a x p
      unfold contentCallback
      refine .ite (.bindR fun r => ?_) (.refl _)
      dsimp only
      exact .ite (.refl _) (.bindR fun _ => Le.bind (ih.parse.sub r) fun _ => .refl _)
    · unfold isElement
      refine .bindR fun t => ?_
      cases t with
      | none => exact .refl _
      | some t =>
        refine .bindR fun st => .bindR fun md => .bindR fun _ => Le.bind (attributeSet_mono n []) fun at' => .bindR fun cl => ?_
        cases cl with
        | some cl => exact .ite (.bind (ih.callback _ _ _ _ _) fun _ => .refl _) (.refl _)
        | none =>
          refine .bindR fun co => ?_
          dsimp only
          refine .ite (.bindR fun _ => .bind ih.content fun x => .bindR fun et => ?_) (.bind ih.content fun x => .bindR fun et => ?_)
          all_goals
            cases et with
            | none => exact .refl _
            | some e =>
              exact .ite (.refl _) (.ite (.refl _) (.bind (ih.callback _ _ _ _ _) fun _ => .refl _))
    · unfold isContent
      refine .bindR fun t => ?_
      cases t with
      | none => exact ih.loop _
      | some t => exact .bindR fun b => .ite (ih.loop _) (.bindR fun _ => ih.loop _)
    · intro x
      unfold contentLoop
      refine .bindR fun t => ?_
      cases t with
      | some t => exact .ite (.bindR fun b => .ite (ih.tail _) (.bindR fun _ => ih.tail _)) (ih.tail _)
      | none =>
        refine Le.bind ih.element fun e => ?_
        cases e with
        | some t => exact .ite (.bindR fun b => .ite (ih.tail _) (.bindR fun _ => ih.tail _)) (ih.tail _)
        | none =>
          refine .bindR fun t => ?_
          cases t with
          | some t => exact ih.tail _
          | none => exact .refl _
    · intro x
      unfold contentTail
      refine .bindR fun t => ?_
      cases t with
      | none => exact ih.loop _
      | some t => exact .bindR fun b => .ite (ih.loop _) (.bindR fun _ => ih.loop _)
    · unfold parseContent
      exact .bindR fun _ => ih.parseLoop
    · unfold parseContentLoop
      exact Le.bind ih.content fun x => .ite (.bindR fun r => .bindR fun _ => ih.parseLoop) (.refl _)

theorem sequenceLoop_mono (n : Nat) : Le (elementSequenceLoop c n) (elementSequenceLoop c (n + 1)) := by
  induction n with
  | zero => exact .stuck _
  | succ n ih =>
    unfold elementSequenceLoop
    refine Le.bind (mono c n).element fun e => ?_
    cases e with
    | none => exact .refl _
    | some e => exact .bindR fun _ => ih

theorem sequence_mono (n : Nat) : Le (parseElementSequence c n) (parseElementSequence c (n + 1)) :=
  .bindR fun _ => sequenceLoop_mono n

theorem document_mono (n : Nat) : Le (parseDocument c n) (parseDocument c (n + 1)) :=
  .bindR fun _ => .bindR fun _ => .bind (mono c n).element fun _ => .refl _

theorem Le.all {p : Nat → M α} (h : ∀ n, Le (p n) (p (n + 1))) {n : Nat} {s : St} (hs : p n s ≠ .stuck) :
    ∀ m, n ≤ m → p m s = p n s := by
  intro m hm
  induction hm with
  | refl => rfl
  | @step m _ ih =>
    rcases h m s with e | e
    · rw [ih] at e; exact absurd e hs
    · rw [e, ih]

end Verif.Xml

import Verif.Model.Streams
import Verif.Spec.Streams
import Verif.Props.Cli

/-! # Lemmas on the streams of the program -/

namespace Thpronun
open Res Spec Cli

section
variable {α β : Type}

theorem act_bind_ok {a : Act α} {f : α → Act β} {x : α} (h : a.res = .ok x) :
    (a >>= f) = ⟨a.out ++ (f x).out, a.err ++ (f x).err, (f x).res⟩ := by
  show Act.bind a f = _
  unfold Act.bind
  rw [h]

theorem act_bind_throw {a : Act α} {f : α → Act β} {e : Exc} (h : a.res = .throw e) :
    (a >>= f) = ⟨a.out, a.err, .throw e⟩ := by
  show Act.bind a f = _
  unfold Act.bind
  rw [h]

theorem act_bind_res (a : Act α) (f : α → Act β) : (a >>= f).res = a.res >>= fun x => (f x).res := by
  show (Act.bind a f).res = _
  unfold Act.bind
  cases a.res <;> rfl

theorem act_lift_ok (x : α) (f : α → Act β) : (Act.lift (.ok x) >>= f) = f x := by
  rw [act_bind_ok rfl]; simp [Act.lift]

theorem act_put (s : Str) (f : Unit → Act β) : (Act.put s >>= f) = ⟨s ++ (f ()).out, (f ()).err, (f ()).res⟩ := by
  rw [act_bind_ok rfl]; simp [Act.put]

theorem act_eput (s : Str) (f : Unit → Act β) : (Act.eput s >>= f) = ⟨(f ()).out, s ++ (f ()).err, (f ()).res⟩ := by
  rw [act_bind_ok rfl]; simp [Act.eput]

theorem act_pure (x : α) : (pure x : Act α) = ⟨[], [], .ok x⟩ := rfl

end

/-- The outputs of a word: nothing goes to the standard error, and the outcome is that of the loop of the model
without streams. -/
theorem outputsS_facts (d : PronunDAG) (ks : List OutKind) :
    (outputsS d ks).err = [] ∧
    (outputsS d ks).res = (outputsLoop d ks >>= fun _ => .ok ()) ∧
    (∀ o, outputsLoop d ks = .ok o → (outputsS d ks).out = o) ∧
    (∀ e, (outputsS d ks).res = .throw e → ∃ done k rest texts, ks = done ++ k :: rest ∧
      List.Forall₂ (fun k t => k.run d = .ok t) done texts ∧ k.run d = .throw e ∧
      (outputsS d ks).out = texts.flatMap fun t => t ++ b!"\n") := by
  induction ks with
  | nil =>
    refine ⟨rfl, rfl, ?_, ?_⟩
    · intro o h; cases h; rfl
    · intro e h; cases h
  | cons k ks ih =>
    obtain ⟨i1, i2, i3, i4⟩ := ih
    simp only [outputsS, outputsLoop]
    cases hk : k.run d with
    | ok o =>
      rw [act_lift_ok, act_put]
      refine ⟨i1, ?_, ?_, ?_⟩
      · simp only [ok_bind, i2]
        cases outputsLoop d ks <;> rfl
      · intro t h
        simp only [ok_bind, bind_eq_ok, pure_eq] at h
        obtain ⟨r, hr, h⟩ := h
        cases h
        simp [i3 r hr]
      · intro e h
        obtain ⟨done, k', rest, texts, h1, h2, h3, h4⟩ := i4 e h
        refine ⟨k :: done, k', rest, o :: texts, by simp [h1], .cons hk h2, h3, ?_⟩
        simp [h4]
    | throw e =>
      rw [act_bind_throw rfl]
      refine ⟨rfl, rfl, ?_, ?_⟩
      · intro t h; cases h
      · intro e' h
        cases h
        exact ⟨[], k, ks, [], rfl, .nil, hk, rfl⟩
    | ub => exact ⟨rfl, rfl, fun t h => (by cases h), fun e h => (by cases h)⟩
    | diverge => exact ⟨rfl, rfl, fun t h => (by cases h), fun e h => (by cases h)⟩

theorem doParseS_facts (parse : Str → Res PronunDAG) (outs : List OutKind) (w : Str) :
    (doParseS parse outs w).err = [] ∧
    (doParseS parse outs w).res = (doParse parse outs w >>= fun _ => .ok ()) ∧
    (∀ o, doParse parse outs w = .ok o → (doParseS parse outs w).out = o) ∧
    (∀ e, (doParseS parse outs w).res = .throw e → BrokenBlock parse outs e w (doParseS parse outs w).out) := by
  unfold doParseS doParse
  rw [act_put]
  cases hp : parse w with
  | ok d =>
    obtain ⟨i1, i2, i3, i4⟩ := outputsS_facts d outs
    rw [act_lift_ok]
    refine ⟨i1, ?_, ?_, ?_⟩
    · simp only [ok_bind, i2]
      cases outputsLoop d outs <;> rfl
    · intro o h
      simp only [ok_bind, bind_eq_ok, pure_eq] at h
      obtain ⟨r, hr, h⟩ := h
      cases h
      simp [i3 r hr]
    · intro e h
      obtain ⟨done, k', rest, texts, h1, h2, h3, h4⟩ := i4 e h
      exact .inr ⟨d, done, k', rest, texts, hp, h1, h2, h3, by simp [h4]⟩
  | throw e =>
    rw [act_bind_throw rfl]
    refine ⟨rfl, rfl, fun t h => (by cases h), ?_⟩
    intro e' h
    cases h
    exact .inl ⟨hp, by simp [Act.lift]⟩
  | ub => exact ⟨rfl, rfl, fun t h => (by cases h), fun e h => (by cases h)⟩
  | diverge => exact ⟨rfl, rfl, fun t h => (by cases h), fun e h => (by cases h)⟩

theorem wordsS_facts (parse : Str → Res PronunDAG) (outs : List OutKind) (ws : List Str) :
    (wordsS parse outs ws).err = [] ∧
    (wordsS parse outs ws).res = (wordsLoop parse outs ws >>= fun _ => .ok ()) ∧
    (∀ o, wordsLoop parse outs ws = .ok o → (wordsS parse outs ws).out = o) ∧
    (∀ e, (wordsS parse outs ws).res = .throw e → ∃ done word rest blocks broken, ws = done ++ word :: rest ∧
      List.Forall₂ (IsBlock parse outs) done blocks ∧ BrokenBlock parse outs e word broken ∧
      (wordsS parse outs ws).out = blocks.flatten ++ broken) := by
  induction ws with
  | nil =>
    refine ⟨rfl, rfl, ?_, ?_⟩
    · intro o h; cases h; rfl
    · intro e h; cases h
  | cons w ws ih =>
    obtain ⟨i1, i2, i3, i4⟩ := ih
    obtain ⟨j1, j2, j3, j4⟩ := doParseS_facts parse outs w
    simp only [wordsS, wordsLoop]
    cases hk : doParse parse outs w with
    | ok o =>
      rw [hk] at j2
      rw [act_bind_ok j2, j1, j3 o hk]
      refine ⟨by simp [i1], ?_, ?_, ?_⟩
      · simp only [ok_bind, i2]
        cases wordsLoop parse outs ws <;> rfl
      · intro t h
        simp only [ok_bind, bind_eq_ok, pure_eq] at h
        obtain ⟨r, hr, h⟩ := h
        cases h
        simp [i3 r hr]
      · intro e h
        obtain ⟨done, word, rest, blocks, broken, h1, h2, h3, h4⟩ := i4 e h
        have hb : IsBlock parse outs w o := by
          have := (C52_output parse outs [w] o).mp (by simp [wordsLoop, hk])
          obtain ⟨bs, hbs, rfl⟩ := this
          cases hbs with
          | cons h1 h2 => cases h2; simpa using h1
        exact ⟨w :: done, word, rest, o :: blocks, broken, by simp [h1], .cons hb h2, h3, by simp [h4]⟩
    | throw e =>
      rw [hk] at j2
      rw [act_bind_throw j2]
      refine ⟨j1, rfl, fun t h => (by cases h), ?_⟩
      intro e' h
      cases h
      exact ⟨[], w, ws, [], _, rfl, .nil, j4 e j2, by simp⟩
    | ub =>
      rw [hk] at j2
      have : (doParseS parse outs w >>= fun _ => wordsS parse outs ws) =
          ⟨(doParseS parse outs w).out, (doParseS parse outs w).err, .ub⟩ := by
        show Act.bind _ _ = _
        unfold Act.bind
        rw [j2]; rfl
      rw [this]
      exact ⟨j1, rfl, fun t h => (by cases h), fun e h => (by cases h)⟩
    | diverge =>
      rw [hk] at j2
      have : (doParseS parse outs w >>= fun _ => wordsS parse outs ws) =
          ⟨(doParseS parse outs w).out, (doParseS parse outs w).err, .diverge⟩ := by
        show Act.bind _ _ = _
        unfold Act.bind
        rw [j2]; rfl
      rw [this]
      exact ⟨j1, rfl, fun t h => (by cases h), fun e h => (by cases h)⟩

theorem wordsS_congr {parse parse' : Str → Res PronunDAG} (outs : List OutKind) (ws : List Str)
    (h : ∀ w ∈ ws, parse w = parse' w) : wordsS parse outs ws = wordsS parse' outs ws := by
  induction ws with
  | nil => rfl
  | cons w ws ih =>
    simp only [wordsS, doParseS]
    rw [h w (by simp), ih fun x hx => h x (by simp [hx])]

theorem loadS_eq {dflt : Str} {p q : Parser} {path : Option Str} {file : Option DictFile} {b : Bool}
    (h : p.loadExceptDict file = .ok (q, b)) :
    loadS dflt p path file = ⟨[], if b then [] else noDictText dflt path, .ok q⟩ := by
  unfold loadS
  rw [h, act_lift_ok]
  cases b with
  | true => rfl
  | false =>
    cases path with
    | none => simp only [Bool.false_eq_true, if_false, act_eput, noDictText]; simp [pure]
    | some s => simp only [Bool.false_eq_true, if_false, act_eput, noDictText]; simp [pure]

variable (prog version dflt : Str) (ct : CType) (brk : U16Str → List Int) (files : Option Str → Option DictFile)
  (args : List Str) (stdin : Str)

/-- A run over words: the dictionary messages on the standard error, then the words. -/
theorem mainS_run {r : Run} {p : Parser} {b : Bool} (hr : plan args (getLines stdin) = .ok (.inr r))
    (hl : (Parser.new brk r.isBreakWords).loadExceptDict (files r.dictPath) = .ok (p, b)) :
    mainS prog version dflt ct brk files args stdin =
      ⟨(wordsS (p.parseWord ct) r.outputs r.words).out, if b then [] else noDictText dflt r.dictPath,
       (wordsS (p.parseWord ct) r.outputs r.words).res >>= fun _ => .ok 0⟩ := by
  unfold mainS
  rw [hr, act_lift_ok]
  simp only
  rw [loadS_eq hl, act_bind_ok rfl]
  have h0 := (wordsS_facts (p.parseWord ct) r.outputs r.words).1
  cases hw : (wordsS (p.parseWord ct) r.outputs r.words).res with
  | ok u => rw [act_bind_ok hw]; simp [pure, h0]
  | throw e => rw [act_bind_throw hw]; simp [h0]
  | ub =>
    have : (wordsS (p.parseWord ct) r.outputs r.words >>= fun _ => (pure 0 : Act Nat)) =
        ⟨(wordsS (p.parseWord ct) r.outputs r.words).out, (wordsS (p.parseWord ct) r.outputs r.words).err, .ub⟩ := by
      show Act.bind _ _ = _
      unfold Act.bind
      rw [hw]
    rw [this]; simp [h0]
  | diverge =>
    have : (wordsS (p.parseWord ct) r.outputs r.words >>= fun _ => (pure 0 : Act Nat)) =
        ⟨(wordsS (p.parseWord ct) r.outputs r.words).out, (wordsS (p.parseWord ct) r.outputs r.words).err, .diverge⟩ := by
      show Act.bind _ _ = _
      unfold Act.bind
      rw [hw]
    rw [this]; simp [h0]

end Thpronun

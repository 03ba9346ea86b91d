import Verif.Spec.Output
import Verif.Spec.Simple

/-! # How a syllable is respelled in Thai letters

The respelling as a Thai primer would give it: the onset by class, the simplest way to get the tone, the frame of the
vowel, the plain final. Clusters and leading ห are marked with a dot below (phinthu). -/

namespace Thpronun.Spec

/-- The ways to write an initial sound, with the class: mid consonants have one way; the others have a low and a high
one, the latter with leading ห if there is no high letter. -/
def ways : InitConsSound → List (InitConsClass × U16Str)
  | .KA => [(.MID, u!"ก")]
  | .JA => [(.MID, u!"จ")]
  | .DA => [(.MID, u!"ด")]
  | .TA => [(.MID, u!"ต")]
  | .BA => [(.MID, u!"บ")]
  | .PA => [(.MID, u!"ป")]
  | .A => [(.MID, u!"อ")]
  | .KHA => [(.LOWP, u!"ค"), (.HIGH, u!"ข")]
  | .CHA => [(.LOWP, u!"ช"), (.HIGH, u!"ฉ")]
  | .THA => [(.LOWP, u!"ท"), (.HIGH, u!"ถ")]
  | .PHA => [(.LOWP, u!"พ"), (.HIGH, u!"ผ")]
  | .FA => [(.LOWP, u!"ฟ"), (.HIGH, u!"ฝ")]
  | .SA => [(.LOWP, u!"ซ"), (.HIGH, u!"ส")]
  | .HA => [(.LOWP, u!"ฮ"), (.HIGH, u!"ห")]
  | .NGA => [(.LOWS, u!"ง"), (.HIGH, u!"หฺง")]
  | .YA => [(.LOWS, u!"ย"), (.HIGH, u!"หฺย")]
  | .NA => [(.LOWS, u!"น"), (.HIGH, u!"หฺน")]
  | .MA => [(.LOWS, u!"ม"), (.HIGH, u!"หฺม")]
  | .RA => [(.LOWS, u!"ร"), (.HIGH, u!"หฺร")]
  | .LA => [(.LOWS, u!"ล"), (.HIGH, u!"หฺล")]
  | .WA => [(.LOWS, u!"ว"), (.HIGH, u!"หฺว")]
  | .INVALID => []

/-- The tone marks, none first. -/
def markTries : List (U16Str × Tone) := [([], .SAMAN), (u!"่", .EK), (u!"้", .THO), (u!"๊", .TRI), (u!"๋", .CHATTAWA)]

/-- The first way, in order of the marks and then low before high, in which the tone rules give the tone; without any,
the first way without mark. -/
def chosenWay (i : InitConsSound) (dead short : Bool) (t : Tone) : InitConsClass × U16Str × U16Str × Tone :=
  let tries := markTries.flatMap fun k => (ways i).map fun x => (x.1, x.2, k.1, k.2)
  match tries.find? fun x => decide (prescribed x.1 x.2.2.2 dead short = some t) with
  | some x => x
  | none => tries.headD (.INVALID, [], [], .INVALID)

/-- The second consonant of a cluster, with the dot below the first. -/
def secondText (c : SecInitCons) : U16Str :=
  if c = SC.RA then u!"ฺร" else if c = SC.LA then u!"ฺล" else if c = SC.WA then u!"ฺว" else []

/-- The plain final letters. -/
def finalText : EndConsClass → U16Str
  | .NONE => [] | .KOK => u!"ก" | .KOT => u!"ด" | .KOP => u!"บ" | .KONG => u!"ง" | .KON => u!"น" | .KOM => u!"ม"
  | .KOEY => u!"ย" | .KOEW => u!"ว"

/-- What stands before the onset, above or below it, and after it. -/
abbrev Frame := U16Str × U16Str × U16Str

/-- The frames of the vowels: in an open syllable and before a final. -/
def frames : List (Vowel × Frame × Frame) := [
  (VW.A, ([], [], u!"ะ"), ([], u!"ั", [])), (VW.AA, ([], [], u!"า"), ([], [], u!"า")),
  (VW.I, ([], u!"ิ", []), ([], u!"ิ", [])), (VW.II, ([], u!"ี", []), ([], u!"ี", [])),
  (VW.UE, ([], u!"ึ", []), ([], u!"ึ", [])), (VW.UEE, ([], u!"ื", u!"อ"), ([], u!"ื", [])),
  (VW.U, ([], u!"ุ", []), ([], u!"ุ", [])), (VW.UU, ([], u!"ู", []), ([], u!"ู", [])),
  (VW.E, (u!"เ", [], u!"ะ"), (u!"เ", u!"็", [])), (VW.EE, (u!"เ", [], []), (u!"เ", [], [])),
  (VW.AE, (u!"แ", [], u!"ะ"), (u!"แ", u!"็", [])), (VW.AEE, (u!"แ", [], []), (u!"แ", [], [])),
  (VW.O, (u!"โ", [], u!"ะ"), ([], [], [])), (VW.OO, (u!"โ", [], []), (u!"โ", [], [])),
  (VW.AU, (u!"เ", [], u!"าะ"), ([], u!"็", u!"อ")), (VW.AUU, ([], [], u!"อ"), ([], [], u!"อ")),
  (VW.OE, (u!"เ", [], u!"อะ"), (u!"เ", u!"ิ", [])), (VW.OEE, (u!"เ", [], u!"อ"), (u!"เ", u!"ิ", [])),
  (VW.UA, ([], u!"ั", u!"วะ"), ([], u!"็", u!"ว")), (VW.UAA, ([], u!"ั", u!"ว"), ([], [], u!"ว")),
  (VW.IA, (u!"เ", u!"ี", u!"ยะ"), (u!"เ", u!"ี", u!"ย")), (VW.IAA, (u!"เ", u!"ี", u!"ย"), (u!"เ", u!"ี", u!"ย")),
  (VW.UEA, (u!"เ", u!"ื", u!"อะ"), (u!"เ", u!"ื", u!"อ")), (VW.UEAA, (u!"เ", u!"ื", u!"อ"), (u!"เ", u!"ื", u!"อ"))]

/-- The frame of a vowel and the final letter; เ◌า and เ◌ย spell the final themselves. -/
def frameOf (v : Vowel) (e : EndConsClass) : Frame × U16Str :=
  if v = VW.A ∧ e = .KOEW then ((u!"เ", [], u!"า"), [])
  else if (v = VW.OE ∨ v = VW.OEE) ∧ e = .KOEY then ((u!"เ", [], u!"ย"), [])
  else match frames.find? fun f => decide (f.1 = v) with
    | some f => (if e = .NONE then f.2.1 else f.2.2, finalText e)
    | none => (([], [], []), [])

/-- A syllable in the frame; maitaikhu gives way to a tone mark. -/
def framed (f : Frame) (on mk fin : U16Str) : U16Str :=
  f.1 ++ on ++ (if f.2.1 = u!"็" ∧ mk ≠ [] then [] else f.2.1) ++ mk ++ f.2.2 ++ fin

/-- The syllable is dead as spelled. -/
def spelledDead (s : Syl) : Bool := isStop s.eCons || (spelledShort s && decide (s.eCons = .NONE))

/-- The respelling of a syllable. -/
def respelled (s : Syl) : U16Str :=
  let x := chosenWay s.iCons1 (spelledDead s) (spelledShort s) s.tone
  let f := frameOf s.vowel s.eCons
  framed f.1 (x.2.1 ++ secondText s.iCons2) x.2.2.1 f.2

/-! ## Which respellings can be read back -/

/-- The vowel and final have a spelling (with or without a tone mark): i, ii, ee before y and o before y, w are not
written so; the short diphthongs and oe are only written in open syllables; the short e, ae, au before a final are only
written without tone mark. -/
def HasSpelling (v : Vowel) (e : EndConsClass) (marked : Bool) : Prop :=
  e = .NONE ∨
  (v ∉ (b!"yztw").map (fun (n : Nat) => (n : Int)) ∧ ¬ (e = .KOEY ∧ v ∈ (b!"iIEo").map fun (n : Nat) => (n : Int)) ∧
   ¬ (e = .KOEW ∧ v = ch!"o") ∧ ¬ (marked = true ∧ v ∈ (b!"exc").map fun (n : Nat) => (n : Int)))

instance (v e m) : Decidable (HasSpelling v e m) := by unfold HasSpelling; infer_instance

/-- The second consonant forms a true cluster with the letter `c`; with ว it needs a written vowel. -/
def HasCluster (s : Syl) (c : Nat) : Prop :=
  s.iCons2 = SC.NONE ∨
  ((∃ e ∈ trueClusters, e.2.2 = s.iCons2 ∧ c ∈ e.1) ∧ ¬ (s.iCons2 = SC.WA ∧ s.vowel = VW.O ∧ s.eCons ≠ .NONE))

instance (s c) : Decidable (HasCluster s c) := by unfold HasCluster; infer_instance

/-- The respelling follows the rules of spelling: the tone can be written, the vowel and final can, and so can the
cluster. -/
def Respellable (s : Syl) : Prop :=
  let x := chosenWay s.iCons1 (spelledDead s) (spelledShort s) s.tone
  ¬ (spelledDead s = true ∧ s.tone = .SAMAN) ∧ HasSpelling s.vowel s.eCons (decide (x.2.2.1 ≠ [])) ∧
    HasCluster s (x.2.1.headD 0)

instance (s) : Decidable (Respellable s) := by unfold Respellable; infer_instance

/-- The text without the dots below. -/
def plain (w : U16Str) : U16Str := w.filter (· ≠ ch!"ฺ")

end Thpronun.Spec

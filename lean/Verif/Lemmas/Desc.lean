import Verif.Spec.Desc
import Verif.Lemmas.Raw

/-! # The notation of dictionary data: helper lemmas -/

namespace Thpronun
open Res Spec

theorem stoi_of_number {t : Str} {n : Int} (h : NumberIs t n) : stoi t = .ok n := by
  obtain ⟨ws, sign, ds, rest, rfl, hws, hs, hne, hds, hrest, rfl, hint⟩ := h
  obtain ⟨d, ds', rfl⟩ := List.exists_cons_of_ne_nil hne
  have hd := hds d (by simp)
  have hdd : isDigitByte d = true := isDigit_iff.mpr hd
  have hdrop : (ws ++ sign ++ (d :: ds') ++ rest).dropWhile isSpaceByte
      = sign ++ (d :: ds') ++ rest := by
    rw [List.append_assoc, List.append_assoc, List.dropWhile_append_of_pos
      (fun b hb => isSpace_iff.mpr (hws b hb)), List.append_assoc]
    rcases hs with rfl | rfl | rfl
    · have : isSpaceByte d = false := by
        rw [← Bool.not_eq_true, isSpace_iff]; omega
      simp [List.dropWhile_cons, this]
    · rfl
    · rfl
  have hsp : signPart (sign ++ (d :: ds') ++ rest) = (decide (sign = b!"-"), (d :: ds') ++ rest) := by
    rcases hs with rfl | rfl | rfl
    · have h1 : d ≠ 45 := by omega
      have h2 : d ≠ 43 := by omega
      simp [signPart, h1, h2]
    · rfl
    · rfl
  have hval : digitsVal 0 ((d :: ds') ++ rest) = Spec.decValue (d :: ds') :=
    digitsVal_foldl 0 _ _ (fun b hb => isDigit_iff.mpr (hds b hb)) (fun b hb => by
      rw [← Bool.not_eq_true, isDigit_iff]; exact hrest b hb)
  unfold stoi
  rw [hdrop]
  simp only [hsp, hval, List.cons_append, hdd, if_true]
  rw [← List.cons_append, hval]
  unfold Spec.IsInt at hint
  rw [if_neg]
  · by_cases hm : sign = b!"-" <;> simp only [hm, decide_true, decide_false, if_true, if_false,
      Bool.false_eq_true]
  · rw [not_or]
    by_cases hm : sign = b!"-" <;> simp only [hm, decide_true, decide_false, if_true, if_false,
      Bool.false_eq_true] at hint ⊢ <;> omega

theorem stoi_iff (t : Str) (n : Int) : stoi t = .ok n ↔ NumberIs t n := by
  refine ⟨fun h => ?_, stoi_of_number⟩
  obtain ⟨ws, sign, ds, rest, h1, h2, h3, h4, h5, h6, h7⟩ := (stoi_ok_iff t).mp ⟨n, h⟩
  have hn : NumberIs t _ := ⟨ws, sign, ds, rest, h1, h2, h3, h4, h5, h6, rfl, h7⟩
  have hs := stoi_of_number hn
  rw [h] at hs
  rw [Res.ok.inj hs]
  exact hn

theorem mapAt_iff {κ ν} [DecidableEq κ] (tbl : List (κ × ν)) (hd : (tbl.map Prod.fst).Nodup) (k : κ) (v : ν) :
    mapAt tbl k = .ok v ↔ (k, v) ∈ tbl := by
  induction tbl with
  | nil => simp [mapAt]
  | cons e r ih =>
    obtain ⟨hk, hr⟩ := List.nodup_cons.mp hd
    by_cases h : e.1 = k
    · subst h
      have h0 : ∀ v, (e.1, v) ∉ r := fun v hv => hk (List.mem_map.mpr ⟨_, hv, rfl⟩)
      simp [mapAt, h0, Prod.ext_iff, eq_comm]
    · have hm : mapAt (e :: r) k = mapAt r k := by
        simp [mapAt, List.find?_cons, h]
      rw [hm, ih hr]
      simp [Prod.ext_iff, Ne.symm h]

theorem splitOn_iff (sep : Byte) (t : Str) (ps : List Str) :
    SylString.splitOn sep t = ps ↔ ps ≠ [] ∧ (∀ a ∈ ps, sep ∉ a) ∧ t = joinWith sep ps := by
  constructor
  · rintro rfl
    refine ⟨SylString.splitOn_ne_nil sep t, ?_⟩
    induction t with
    | nil => exact ⟨by simp [SylString.splitOn], rfl⟩
    | cons c t ih =>
      obtain ⟨h1, h2⟩ := ih
      rw [SylString.splitOn]
      split
      · next h =>
        subst h
        refine ⟨fun a ha => ?_, ?_⟩
        · rcases List.mem_cons.mp ha with rfl | ha
          · simp
          · exact h1 a ha
        · generalize hs : SylString.splitOn c t = l at h2
          cases l with
          | nil => exact absurd hs (SylString.splitOn_ne_nil c t)
          | cons x l => rw [joinWith, ← h2]; rfl
      · next h =>
        generalize hs : SylString.splitOn sep t = l at h1 h2
        cases l with
        | nil => exact absurd hs (SylString.splitOn_ne_nil sep t)
        | cons x l =>
          simp only
          refine ⟨fun a ha => ?_, ?_⟩
          · rcases List.mem_cons.mp ha with rfl | ha
            · rw [List.mem_cons, not_or]
              exact ⟨Ne.symm h, h1 x (List.mem_cons_self ..)⟩
            · exact h1 a (List.mem_cons_of_mem _ ha)
          · rw [h2]
            cases l with
            | nil => rfl
            | cons y l => rfl
  · rintro ⟨h1, h2, rfl⟩
    exact SylString.splitOn_joinWith sep ps h1 h2

theorem mapRes_iff {α β} (f : α → Res β) (as : List α) (bs : List β) :
    SylString.mapRes f as = .ok bs ↔ List.Forall₂ (fun a b => f a = .ok b) as bs := by
  refine ⟨fun h => ?_, mapRes_forall₂⟩
  induction as generalizing bs with
  | nil => cases h; exact .nil
  | cons a as ih =>
    rw [SylString.mapRes] at h
    obtain ⟨b, hb, h⟩ := Res.bind_eq_ok.mp h
    obtain ⟨bs', hbs, h⟩ := Res.bind_eq_ok.mp h
    cases h
    exact .cons hb (ih _ hbs)

theorem initialCode_iff (c : Nat) (v : InitConsSound) : initConsCodeToSound c = .ok v ↔ (c, v) ∈ initialCodes :=
  mapAt_iff initConsCodeToSoundTbl (by decide) c v
theorem finalCode_iff (c : Nat) (v : EndConsClass) : endConsCodeToClass c = .ok v ↔ (c, v) ∈ finalCodes :=
  mapAt_iff endConsCodeToClassTbl (by decide) c v
theorem toneCode_iff (c : Nat) (v : Tone) : toneCodeToTone c = .ok v ↔ (c, v) ∈ toneCodes :=
  mapAt_iff toneCodeToToneTbl (by decide) c v

theorem strIdx_get {s : Str} {i : Nat} {c : Nat} (h : s[i]? = some c) : strIdx s i = .ok c := by
  unfold strIdx; rw [h]

theorem sylOfDesc_iff (desc : Str) (dflt : Int) (s : Syl) : sylOfDesc desc dflt = .ok s ↔ SylIs desc dflt s := by
  constructor
  · intro h
    unfold sylOfDesc at h
    obtain ⟨c0, h0, h⟩ := Res.bind_eq_ok.mp h
    obtain ⟨i, hi, h⟩ := Res.bind_eq_ok.mp h
    obtain ⟨c1, h1, h⟩ := Res.bind_eq_ok.mp h
    obtain ⟨c2, h2, h⟩ := Res.bind_eq_ok.mp h
    obtain ⟨c3, h3, h⟩ := Res.bind_eq_ok.mp h
    obtain ⟨e, he, h⟩ := Res.bind_eq_ok.mp h
    obtain ⟨c4, h4, h⟩ := Res.bind_eq_ok.mp h
    obtain ⟨t, ht, h⟩ := Res.bind_eq_ok.mp h
    have n0 : initConsCodeToSound 0 ≠ .ok i := by simp [initialCode_iff, initialCodes]
    have n3 : endConsCodeToClass 0 ≠ .ok e := by simp [finalCode_iff, finalCodes]
    have n4 : toneCodeToTone 0 ≠ .ok t := by simp [toneCode_iff, toneCodes]
    have idx : ∀ {k c : Nat}, strIdx desc k = .ok c → desc[k]? = some c ∨ (k = desc.length ∧ c = 0) := by
      intro k c hk
      unfold strIdx at hk
      split at hk
      · next x hx => cases hk; exact .inl hx
      · split at hk
        · next hl => cases hk; exact .inr ⟨hl, rfl⟩
        · cases hk
    have g4 : desc[4]? = some c4 := by
      rcases idx h4 with g | ⟨-, rfl⟩
      · exact g
      · exact absurd ht n4
    have hlen : 4 < desc.length := (List.getElem?_eq_some_iff.mp g4).1
    have get : ∀ {k c : Nat}, k < 4 → strIdx desc k = .ok c → desc[k]? = some c := by
      intro k c hk4 hk
      rcases idx hk with g | ⟨g, -⟩
      · exact g
      · omega
    split at h
    · next hc =>
      obtain ⟨n, hn, h⟩ := Res.bind_eq_ok.mp h
      cases h
      exact ⟨rfl, ⟨c0, get (by omega) h0, (initialCode_iff _ _).mp hi⟩, ⟨c1, get (by omega) h1, rfl⟩, ⟨c2, get (by omega) h2, rfl⟩,
        ⟨c3, get (by omega) h3, (finalCode_iff _ _).mp he⟩, ⟨c4, g4, (toneCode_iff _ _).mp ht⟩, by
          rw [if_pos hc]; exact (stoi_iff _ _).mp hn⟩
    · next hc =>
      cases h
      exact ⟨rfl, ⟨c0, get (by omega) h0, (initialCode_iff _ _).mp hi⟩, ⟨c1, get (by omega) h1, rfl⟩, ⟨c2, get (by omega) h2, rfl⟩,
        ⟨c3, get (by omega) h3, (finalCode_iff _ _).mp he⟩, ⟨c4, g4, (toneCode_iff _ _).mp ht⟩, by
          rw [if_neg hc]⟩
  · rintro ⟨hl, ⟨c0, h0, k0⟩, ⟨c1, h1, k1⟩, ⟨c2, h2, k2⟩, ⟨c3, h3, k3⟩, ⟨c4, h4, k4⟩, hp⟩
    cases s with
    | mk i i2 v e t l p =>
    simp only at hl k0 k1 k2 k3 k4 hp
    subst hl k1 k2
    unfold sylOfDesc
    rw [strIdx_get h0, strIdx_get h1, strIdx_get h2, strIdx_get h3, strIdx_get h4]
    simp only [ok_bind, (initialCode_iff _ _).mpr k0, (finalCode_iff _ _).mpr k3, (toneCode_iff _ _).mpr k4]
    split
    · next hc =>
      rw [if_pos hc] at hp
      rw [(stoi_iff _ _).mpr hp]
      rfl
    · next hc =>
      rw [if_neg hc] at hp
      rw [hp]
      rfl

theorem makeSylStrings_iff (data : Str) (strs : List SylString) :
    SylString.makeSylStrings data = .ok strs ↔ DataIs data strs := by
  have hof : ∀ t l, SylString.ofDesc t = .ok l ↔ List.Forall₂ (fun d s => SylIs d (-1) s) (SylString.splitOn ch!"," t) l := by
    intro t l
    unfold SylString.ofDesc
    rw [mapRes_iff]
    simp only [sylOfDesc_iff]
  unfold SylString.makeSylStrings DataIs
  rw [mapRes_iff]
  simp only [hof]
  constructor
  · intro h
    obtain ⟨h1, h2, h3⟩ := (splitOn_iff ch!";" data _).mp rfl
    generalize SylString.splitOn ch!";" data = ts at h h1 h2 h3
    refine ⟨ts.map (SylString.splitOn ch!","), by simpa using h1, ?_, ?_, ?_⟩
    · rw [h3, List.map_map]
      congr 1
      conv_lhs => rw [← List.map_id ts]
      refine List.map_congr_left fun t _ => ?_
      exact ((splitOn_iff ch!"," t _).mp rfl).2.2
    · intro ps hps
      obtain ⟨t, ht, rfl⟩ := List.mem_map.mp hps
      obtain ⟨k1, k2, k3⟩ := (splitOn_iff ch!"," t _).mp rfl
      refine ⟨k1, fun d hd => ⟨k2 d hd, fun hm => h2 t ht ?_⟩⟩
      rw [k3]
      generalize SylString.splitOn ch!"," t = l at hd
      induction l with
      | nil => cases hd
      | cons x l ih =>
        cases l with
        | nil =>
          rcases List.mem_cons.mp hd with rfl | hd
          · exact hm
          · cases hd
        | cons y l =>
          rw [joinWith, List.mem_append]
          rcases List.mem_cons.mp hd with rfl | hd
          · exact .inl hm
          · exact .inr (List.mem_cons_of_mem _ (ih hd))
    · exact List.forall₂_map_left_iff.mpr h
  · rintro ⟨parts, h1, rfl, h3, h4⟩
    have hs : SylString.splitOn ch!";" (joinWith ch!";" (parts.map (joinWith ch!","))) = parts.map (joinWith ch!",") := by
      refine SylString.splitOn_joinWith _ _ (by simpa using h1) fun a ha => ?_
      obtain ⟨ps, hps, rfl⟩ := List.mem_map.mp ha
      have hd := (h3 ps hps).2
      clear hps ha
      induction ps with
      | nil => simp [joinWith]
      | cons x l ih =>
        cases l with
        | nil => exact (hd x (List.mem_cons_self ..)).2
        | cons y l =>
          rw [joinWith, List.mem_append, List.mem_cons]
          rintro (h | h | h)
          · exact (hd x (List.mem_cons_self ..)).2 h
          · exact absurd h (by decide)
          · exact ih (fun d hd' => hd d (List.mem_cons_of_mem _ hd')) h
    rw [hs, List.forall₂_map_left_iff]
    clear hs h1
    induction h4 with
    | nil => exact .nil
    | @cons ps l parts strs hp _ ih =>
      refine .cons ?_ (ih fun x hx => h3 x (List.mem_cons_of_mem _ hx))
      obtain ⟨k1, k2⟩ := h3 ps (List.mem_cons_self ..)
      rw [SylString.splitOn_joinWith _ ps k1 fun a ha => (k2 a ha).1]
      exact hp

end Thpronun

import Verif.Model.Utf

/-! # UTF-8 and UTF-16: encoding and decoding are inverse to each other -/

namespace Thpronun

/-- UTF-8 text of a list of code points. -/
def enc8 (cs : List Nat) : Str := cs.flatMap utf8EncodeOne
/-- UTF-16 text of a list of code points. -/
def enc16 (cs : List Nat) : U16Str := cs.flatMap utf16EncodeOne

@[simp] theorem enc8_nil : enc8 [] = [] := rfl
@[simp] theorem enc8_cons (c cs) : enc8 (c :: cs) = utf8EncodeOne c ++ enc8 cs := by simp [enc8]
@[simp] theorem enc8_append (a b) : enc8 (a ++ b) = enc8 a ++ enc8 b := by simp [enc8]
@[simp] theorem enc16_nil : enc16 [] = [] := rfl
@[simp] theorem enc16_cons (c cs) : enc16 (c :: cs) = utf16EncodeOne c ++ enc16 cs := by simp [enc16]
@[simp] theorem enc16_append (a b) : enc16 (a ++ b) = enc16 a ++ enc16 b := by simp [enc16]

theorem isScalar_iff {c : Nat} : isScalar c = true ↔ c < 0xd800 ∨ (0xe000 ≤ c ∧ c < 0x110000) := by
  simp [isScalar]

theorem utf8Decode_one (c : Nat) (h : isScalar c = true) (r : Str) :
    utf8Decode (utf8EncodeOne c ++ r) = (utf8Decode r).map (c :: ·) := by
  rw [isScalar_iff] at h
  unfold utf8EncodeOne
  split
  · rename_i h1
    rw [List.singleton_append, utf8Decode.eq_def]; simp only [h1, if_true]
  split
  · rename_i h1 h2
    have e1 : ¬ (0xc0 + c / 0x40 < 0x80) := by omega
    have e2 : ¬ (0xc0 + c / 0x40 < 0xc2) := by omega
    have e3 : 0xc0 + c / 0x40 < 0xe0 := by omega
    have e4 : isCont (0x80 + c % 0x40) = true := by simp [isCont]; omega
    have e5 : (0xc0 + c / 0x40 - 0xc0) * 0x40 + (0x80 + c % 0x40 - 0x80) = c := by omega
    simp only [List.cons_append, List.nil_append]
    rw [utf8Decode, if_neg e1, if_neg e2, if_pos e3]
    simp only [e4, if_true, e5]
  split
  · rename_i h1 h2 h3
    have e1 : ¬ (0xe0 + c / 0x1000 < 0x80) := by omega
    have e2 : ¬ (0xe0 + c / 0x1000 < 0xc2) := by omega
    have e3 : ¬ (0xe0 + c / 0x1000 < 0xe0) := by omega
    have e3' : 0xe0 + c / 0x1000 < 0xf0 := by omega
    have e4 : isCont (0x80 + c / 0x40 % 0x40) = true := by simp [isCont]; omega
    have e4' : isCont (0x80 + c % 0x40) = true := by simp [isCont]; omega
    have e5 : (0xe0 + c / 0x1000 - 0xe0) * 0x1000 + (0x80 + c / 0x40 % 0x40 - 0x80) * 0x40 +
        (0x80 + c % 0x40 - 0x80) = c := by omega
    have e6 : isScalar c = true := isScalar_iff.mpr h
    simp only [List.cons_append, List.nil_append]
    rw [utf8Decode, if_neg e1, if_neg e2, if_neg e3, if_pos e3']
    have e7 : 0x800 ≤ c := by omega
    simp only [e5, e4, e4', e6, e7, decide_true, Bool.and_self, if_true]
  · rename_i h1 h2 h3
    have e1 : ¬ (0xf0 + c / 0x40000 < 0x80) := by omega
    have e2 : ¬ (0xf0 + c / 0x40000 < 0xc2) := by omega
    have e3 : ¬ (0xf0 + c / 0x40000 < 0xe0) := by omega
    have e3' : ¬ (0xf0 + c / 0x40000 < 0xf0) := by omega
    have e3'' : 0xf0 + c / 0x40000 < 0xf5 := by omega
    have e4 : isCont (0x80 + c / 0x40 % 0x40) = true := by simp [isCont]; omega
    have e4' : isCont (0x80 + c % 0x40) = true := by simp [isCont]; omega
    have e4'' : isCont (0x80 + c / 0x1000 % 0x40) = true := by simp [isCont]; omega
    have e5 : (0xf0 + c / 0x40000 - 0xf0) * 0x40000 + (0x80 + c / 0x1000 % 0x40 - 0x80) * 0x1000 +
        (0x80 + c / 0x40 % 0x40 - 0x80) * 0x40 + (0x80 + c % 0x40 - 0x80) = c := by omega
    have e6 : isScalar c = true := isScalar_iff.mpr h
    simp only [List.cons_append, List.nil_append]
    rw [utf8Decode, if_neg e1, if_neg e2, if_neg e3, if_neg e3', if_pos e3'']
    have e7 : 0x10000 ≤ c := by omega
    simp only [e5, e4, e4', e4'', e6, e7, decide_true, Bool.and_self, if_true]

theorem utf8Decode_enc8 (cs : List Nat) (h : ∀ c ∈ cs, isScalar c = true) (r : Str) :
    utf8Decode (enc8 cs ++ r) = (utf8Decode r).map (cs ++ ·) := by
  induction cs with
  | nil => simp
  | cons c cs ih =>
    rw [enc8_cons, List.append_assoc, utf8Decode_one c (h c (by simp)),
      ih fun x hx => h x (List.mem_cons_of_mem _ hx)]
    cases utf8Decode r <;> simp

theorem utf16Decode_one (c : Nat) (h : isScalar c = true) (r : U16Str) :
    utf16Decode (utf16EncodeOne c ++ r) = (utf16Decode r).map (c :: ·) := by
  rw [isScalar_iff] at h
  unfold utf16EncodeOne
  split
  · have : c < 0xd800 ∨ (0xe000 ≤ c ∧ c < 0x10000) := by omega
    rw [List.singleton_append, utf16Decode.eq_def]; simp only [this, if_true]
  · have e1 : ¬ (0xd800 + (c - 0x10000) / 0x400 < 0xd800 ∨
        (0xe000 ≤ 0xd800 + (c - 0x10000) / 0x400 ∧ 0xd800 + (c - 0x10000) / 0x400 < 0x10000)) := by
      omega
    have e2 : 0xd800 + (c - 0x10000) / 0x400 < 0xdc00 := by omega
    have e3 : 0xdc00 ≤ 0xdc00 + (c - 0x10000) % 0x400 ∧ 0xdc00 + (c - 0x10000) % 0x400 < 0xe000 := by
      omega
    have e4 : 0x10000 + (0xd800 + (c - 0x10000) / 0x400 - 0xd800) * 0x400 +
        (0xdc00 + (c - 0x10000) % 0x400 - 0xdc00) = c := by omega
    simp only [List.cons_append, List.nil_append]
    rw [utf16Decode, if_neg e1, if_pos e2]
    simp only [e3, and_self, if_true, e4]

theorem utf16Decode_enc16 (cs : List Nat) (h : ∀ c ∈ cs, isScalar c = true) (r : U16Str) :
    utf16Decode (enc16 cs ++ r) = (utf16Decode r).map (cs ++ ·) := by
  induction cs with
  | nil => simp
  | cons c cs ih =>
    rw [enc16_cons, List.append_assoc, utf16Decode_one c (h c (by simp)),
      ih fun x hx => h x (List.mem_cons_of_mem _ hx)]
    cases utf16Decode r <;> simp

theorem utf8Decode_inv (s : Str) (cs : List Nat) (h : utf8Decode s = some cs) :
    (∀ c ∈ cs, isScalar c = true) ∧ enc8 cs = s := by
  fun_induction utf8Decode s generalizing cs with
  | case1 => simp at h; subst h; simp
  | case2 b r h1 ih =>
    simp only [Option.map_eq_some_iff] at h
    obtain ⟨cs', h', rfl⟩ := h
    obtain ⟨i1, i2⟩ := ih _ h'
    refine ⟨?_, by simp [utf8EncodeOne, h1, i2]⟩
    intro c hc
    rcases List.mem_cons.mp hc with he | hc
    · rw [he, isScalar_iff]; omega
    · exact i1 c hc
  | case3 => simp at h
  | case4 b0 h1 h2 h3 b1 r1 hc ih =>
    simp only [Option.map_eq_some_iff] at h
    obtain ⟨cs', h', rfl⟩ := h
    obtain ⟨i1, i2⟩ := ih _ h'
    simp only [isCont, Bool.and_eq_true, decide_eq_true_eq] at hc
    refine ⟨?_, ?_⟩
    · intro c hc
      rcases List.mem_cons.mp hc with he | hc
      · rw [he, isScalar_iff]; omega
      · exact i1 c hc
    · rw [enc8_cons, i2, utf8EncodeOne, if_neg (by omega), if_pos (by omega)]
      simp only [List.cons_append, List.nil_append, List.cons.injEq, and_true]
      omega
  | case5 => simp at h
  | case6 => simp at h
  | case7 b0 h1 h2 h3 h4 b1 b2 r2 c hc ih =>
    simp only [Option.map_eq_some_iff] at h
    obtain ⟨cs', h', rfl⟩ := h
    obtain ⟨i1, i2⟩ := ih _ h'
    simp only [isCont, Bool.and_eq_true, decide_eq_true_eq, isScalar_iff] at hc
    have hcv : c = (b0 - 0xe0) * 0x1000 + (b1 - 0x80) * 0x40 + (b2 - 0x80) := rfl
    refine ⟨?_, ?_⟩
    · intro x hx
      rcases List.mem_cons.mp hx with he | hx
      · rw [he, isScalar_iff]; exact hc.2
      · exact i1 x hx
    · rw [enc8_cons, i2, utf8EncodeOne, if_neg (by omega), if_neg (by omega), if_pos (by omega)]
      simp only [List.cons_append, List.nil_append, List.cons.injEq, and_true]
      omega
  | case8 => simp at h
  | case9 => simp at h
  | case10 b0 h1 h2 h3 h4 h5 b1 b2 b3 r3 c hc ih =>
    simp only [Option.map_eq_some_iff] at h
    obtain ⟨cs', h', rfl⟩ := h
    obtain ⟨i1, i2⟩ := ih _ h'
    simp only [isCont, Bool.and_eq_true, decide_eq_true_eq, isScalar_iff] at hc
    have hcv : c = (b0 - 0xf0) * 0x40000 + (b1 - 0x80) * 0x1000 + (b2 - 0x80) * 0x40 + (b3 - 0x80) :=
      rfl
    refine ⟨?_, ?_⟩
    · intro x hx
      rcases List.mem_cons.mp hx with he | hx
      · rw [he, isScalar_iff]; exact hc.2
      · exact i1 x hx
    · rw [enc8_cons, i2, utf8EncodeOne, if_neg (by omega), if_neg (by omega), if_neg (by omega)]
      simp only [List.cons_append, List.nil_append, List.cons.injEq, and_true]
      omega
  | case11 => simp at h
  | case12 => simp at h
  | case13 => simp at h

theorem utf16Decode_inv (s : U16Str) (cs : List Nat) (h : utf16Decode s = some cs) :
    (∀ c ∈ cs, isScalar c = true) ∧ enc16 cs = s := by
  fun_induction utf16Decode s generalizing cs with
  | case1 => simp at h; subst h; simp
  | case2 u us h1 ih =>
    simp only [Option.map_eq_some_iff] at h
    obtain ⟨cs', h', rfl⟩ := h
    obtain ⟨i1, i2⟩ := ih _ h'
    refine ⟨?_, ?_⟩
    · intro c hc
      rcases List.mem_cons.mp hc with he | hc
      · rw [he, isScalar_iff]; omega
      · exact i1 c hc
    · rw [enc16_cons, i2, utf16EncodeOne, if_pos (by omega)]; rfl
  | case3 => simp at h
  | case4 u h1 h2 l us' h3 ih =>
    simp only [Option.map_eq_some_iff] at h
    obtain ⟨cs', h', rfl⟩ := h
    obtain ⟨i1, i2⟩ := ih _ h'
    refine ⟨?_, ?_⟩
    · intro c hc
      rcases List.mem_cons.mp hc with he | hc
      · rw [he, isScalar_iff]; omega
      · exact i1 c hc
    · rw [enc16_cons, i2, utf16EncodeOne, if_neg (by omega)]
      simp only [List.cons_append, List.nil_append, List.cons.injEq, and_true]
      omega
  | case5 => simp at h
  | case6 => simp at h

theorem utf8Decode_append {a b : Str} {x : List Nat} (h : utf8Decode a = some x) :
    utf8Decode (a ++ b) = (utf8Decode b).map (x ++ ·) := by
  obtain ⟨h1, rfl⟩ := utf8Decode_inv a x h
  exact utf8Decode_enc8 x h1 b

theorem utf16Decode_append {a b : U16Str} {x : List Nat} (h : utf16Decode a = some x) :
    utf16Decode (a ++ b) = (utf16Decode b).map (x ++ ·) := by
  obtain ⟨h1, rfl⟩ := utf16Decode_inv a x h
  exact utf16Decode_enc16 x h1 b

end Thpronun

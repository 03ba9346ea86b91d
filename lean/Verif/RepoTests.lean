import Verif.Model.Cli
import Verif.Model.GenDict
import Verif.Model.ShippedData
import Verif.Spec.Dict

/-! # The expectations of the tests in /repo, evaluated on the model

Written by tools/repotests.py. These are tests of the translation, not proofs: they are run by the Lean evaluator, and no
theorem depends on them. The programs of thpronun/tests/ are run without word breaks (libthai is not modelled). -/

namespace Thpronun.RepoTests

def syl (d : Str) : Syl := match sylOfDesc d with
  | .ok s => s
  | _ => Syl.lit 0 u!"bad"

def ofD (d : Str) : SylString := match SylString.ofDesc d with
  | .ok s => s
  | _ => []

def frac (l : List SylString) : PronunFrac := l.foldl PronunFrac.addStr PronunFrac.empty

/-- `MakeFrac` of test-prondag.cxx -/
def fracs (pos : Int) (l : List (List Str)) : PronunFrac :=
  match l with
  | [a] => PronunFrac.single pos (a.map syl)
  | _ => l.foldl (fun f a => f.addFrac (PronunFrac.single pos (a.map syl))) PronunFrac.empty

def onDag {α} (d : Res α) (f : α → Bool) : Bool := match d with
  | .ok d => f d
  | _ => false

def dictOf (tsv : Str) : Dict :=
  match Gen.genDict 0 tsv with
  | .ok r => match Dict.empty.open_ r.file with
    | .ok (d, true) => d
    | _ => Dict.empty
  | _ => Dict.empty

def found : Nat → Match → List (Nat × Str)
  | 0, _ => []
  | n + 1, m =>
    match m.findNext with
    | (m, true) => (m.getCurPos, match m.getData with | .ok d => d | _ => []) :: found n m
    | (_, false) => []

/-- data/except.dic -/
def exceptDict : Dict := dictOf (Shipped.exceptTable.flatMap fun e => Spec.entryLine ⟨e.1, e.2⟩)

/-- `p` occurs in `s` -/
def occurs (p s : Str) : Bool := (List.range (s.length + 1)).any fun i => p.isPrefixOf (s.drop i)

/-- `thpronun -d dict -c word | grep text` succeeds -/
def prints (dict : Dict) (c : Byte) (word text : Str) : Bool :=
  match (do
    let w ← fromBytes word
    let d ← parseU16Fuel thaiCType w 5000 (some dict) []
    (Cli.makeOutput c false false).run d : Res Str) with
  | .ok o => occurs text o
  | _ => false

#guard exceptDict.mTrie.isSome

/-! ## output/tests/test-sylstring.cxx -/
#guard delimStr thaiSyl ch!"-" (ofD b!"k_ok1") = .ok b!"กก"
#guard delimStr thaiSyl ch!"-" (ofD b!"k_ok1" ++ ofD b!"t_on2") = .ok b!"กก-ต้น"
#guard delimStr thaiSyl ch!"-" (ofD b!"k_ok1" ++ ofD b!"t_on2" ++ ofD b!"h_U_4") = .ok b!"กก-ต้น-หู"
#guard delimStr thaiSyl ch!"-" (ofD b!"k_ok1" ++ ofD b!"t_on2" ++ ofD b!"h_U_4" ++ ofD b!"kwAg0") = .ok b!"กก-ต้น-หู-กฺวาง"
#guard delimStr thaiSyl ch!"-" (ofD b!"k_ok1" ++ ofD b!"t_on2" ++ ofD b!"h_U_4" ++ ofD b!"kwAg0" ++ ofD b!"l_Yw4") = .ok b!"กก-ต้น-หู-กฺวาง-เหฺลียว"
#guard delimStr thaiSyl ch!"-" (ofD b!"k_ok1" ++ ofD b!"t_on2" ++ ofD b!"h_U_4" ++ ofD b!"kwAg0" ++ ofD b!"l_Yw4" ++ ofD b!"l_c_3") = .ok b!"กก-ต้น-หู-กฺวาง-เหฺลียว-เลาะ"
#guard delimStr thaiSyl ch!"-" (ofD b!"k_ok1" ++ ofD b!"t_on2" ++ ofD b!"h_U_4" ++ ofD b!"kwAg0" ++ ofD b!"l_Yw4" ++ ofD b!"l_c_3" ++ ofD b!"r_Cg3") = .ok b!"กก-ต้น-หู-กฺวาง-เหฺลียว-เลาะ-ร้อง"
#guard delimStr thaiSyl ch!"-" (ofD b!"k_ok1" ++ ofD b!"t_on2" ++ ofD b!"h_U_4" ++ ofD b!"kwAg0" ++ ofD b!"l_Yw4" ++ ofD b!"l_c_3" ++ ofD b!"r_Cg3" ++ ofD b!"p_en0") = .ok b!"กก-ต้น-หู-กฺวาง-เหฺลียว-เลาะ-ร้อง-เป็น"
#guard delimStr thaiSyl ch!"-" (ofD b!"k_ok1" ++ ofD b!"t_on2" ++ ofD b!"h_U_4" ++ ofD b!"kwAg0" ++ ofD b!"l_Yw4" ++ ofD b!"l_c_3" ++ ofD b!"r_Cg3" ++ ofD b!"p_en0" ++ ofD b!"t_A_0") = .ok b!"กก-ต้น-หู-กฺวาง-เหฺลียว-เลาะ-ร้อง-เป็น-ตา"
#guard delimStr thaiSyl ch!"-" (ofD b!"k_ok1" ++ ofD b!"t_on2" ++ ofD b!"h_U_4" ++ ofD b!"kwAg0" ++ ofD b!"l_Yw4" ++ ofD b!"l_c_3" ++ ofD b!"r_Cg3" ++ ofD b!"p_en0" ++ ofD b!"t_A_0" ++ ofD b!"s_xp2") = .ok b!"กก-ต้น-หู-กฺวาง-เหฺลียว-เลาะ-ร้อง-เป็น-ตา-แซ่บ"
#guard delimStr thaiSyl ch!"-" (ofD b!"l_a_3,l_an0,l_an1,l_A_3") = .ok b!"ละ-ลัน-หฺลั่น-ล้า"
#guard delimStr thaiSyl ch!"-" (ofD b!"cray0,cray2,c_Ay4,c_ay1,k_ay1,crA_0,cram2,m_Ay3,m_ay4,l_aw2") = .ok b!"คฺรัย-คฺรั่ย-ขาย-ขั่ย-กั่ย-คฺรา-คฺรั่ม-ม้าย-หฺมัย-เล่า"
#guard delimStr thaiSyl ch!"-" (ofD b!"m_Xw0,l_x_3,d_ek1,l_E_1,l_en2,j_w_1,j_W_0,klZ_0,d_Wn0,klZk1,c_T_2,klig2,r_Tm2,r_Og0,r_Yn0") = .ok b!"แมว-และ-เด็ก-เหฺล่-เล่น-เจอะ-เจอ-เกฺลือ-เดิน-เกฺลือก-คั่ว-กฺลิ้ง-ร่วม-โรง-เรียน"
#guard delimStr thaiSyl ch!"-" (ofD b!"m_V_0,m_Vt2,krIt1,k_ug2,P_Un3,n_vg1,s_ig1,m_i_3,m_I_0,g_U_0,l_u_3,r_v_3") = .ok b!"มือ-มืด-กฺรีด-กุ้ง-พู้น-หฺนึ่ง-สิ่ง-มิ-มี-งู-ลุ-รึ"
#guard delimStr thaiSyl ch!"-" (ofD b!"k_Wn0,l_Wy0,m_Wy3") = .ok b!"เกิน-เลย-เม้ย"
#guard delimStr thaiSyl ch!"-" (ofD b!"k_Wn0,l_Wy0,m_Wy3" ++ [Syl.blank] ++ ofD b!"?_Wy4") = .ok b!"เกิน-เลย-เม้ย เอ๋ย"
#guard delimStr thaiSyl ch!"-" (ofD b!"k_Wn0,l_Wy0,m_Wy3" ++ [Syl.blank] ++ ofD b!"?_Wy4" ++ [Syl.lit 20 u!"hello"]) = .ok b!"เกิน-เลย-เม้ย เอ๋ย-(hello)"
#guard romanStr false (ofD b!"k_ok1") = .ok b!"kok"
#guard romanStr false (ofD b!"k_ok1" ++ ofD b!"t_on2") = .ok b!"kokton"
#guard romanStr false (ofD b!"k_ok1" ++ ofD b!"t_on2" ++ ofD b!"h_U_4") = .ok b!"koktonhu"
#guard romanStr false (ofD b!"k_ok1" ++ ofD b!"t_on2" ++ ofD b!"h_U_4" ++ ofD b!"kwAg0") = .ok b!"koktonhukwang"
#guard romanStr false (ofD b!"k_ok1" ++ ofD b!"t_on2" ++ ofD b!"h_U_4" ++ ofD b!"kwAg0" ++ ofD b!"l_Yw4") = .ok b!"koktonhukwangliao"
#guard romanStr false (ofD b!"k_ok1" ++ ofD b!"t_on2" ++ ofD b!"h_U_4" ++ ofD b!"kwAg0" ++ ofD b!"l_Yw4" ++ ofD b!"l_c_3") = .ok b!"koktonhukwangliaolo"
#guard romanStr false (ofD b!"k_ok1" ++ ofD b!"t_on2" ++ ofD b!"h_U_4" ++ ofD b!"kwAg0" ++ ofD b!"l_Yw4" ++ ofD b!"l_c_3" ++ ofD b!"r_Cg3") = .ok b!"koktonhukwangliaolorong"
#guard romanStr false (ofD b!"k_ok1" ++ ofD b!"t_on2" ++ ofD b!"h_U_4" ++ ofD b!"kwAg0" ++ ofD b!"l_Yw4" ++ ofD b!"l_c_3" ++ ofD b!"r_Cg3" ++ ofD b!"p_en0") = .ok b!"koktonhukwangliaolorongpen"
#guard romanStr false (ofD b!"k_ok1" ++ ofD b!"t_on2" ++ ofD b!"h_U_4" ++ ofD b!"kwAg0" ++ ofD b!"l_Yw4" ++ ofD b!"l_c_3" ++ ofD b!"r_Cg3" ++ ofD b!"p_en0" ++ ofD b!"t_A_0") = .ok b!"koktonhukwangliaolorongpenta"
#guard romanStr false (ofD b!"k_ok1" ++ ofD b!"t_on2" ++ ofD b!"h_U_4" ++ ofD b!"kwAg0" ++ ofD b!"l_Yw4" ++ ofD b!"l_c_3" ++ ofD b!"r_Cg3" ++ ofD b!"p_en0" ++ ofD b!"t_A_0" ++ ofD b!"s_xp2") = .ok b!"koktonhukwangliaolorongpentasaep"
#guard romanStr false (ofD b!"l_a_3,l_an0,l_an1,l_A_3") = .ok b!"lalanlanla"
#guard romanStr false (ofD b!"cray0,cray2,c_Ay4,c_ay1,k_ay1,crA_0,cram2,m_Ay3,m_ay4,l_aw2") = .ok b!"khraikhraikhaikhaikaikhrakhrammaimailao"
#guard romanStr true (ofD b!"m_Xw0,l_x_3,d_ek1,l_E_1,l_en2,j_w_1,j_W_0,klZ_0,d_Wn0,klZk1,c_T_2,klig2,r_Tm2,r_Og0,r_Yn0") = .ok b!"Maeolaedeklelenchoechoeklueadoenklueakkhuaklingruamrongrian"
#guard romanStr false (ofD b!"m_V_0,m_Vt2,krIt1,k_ug2,P_Un3,n_vg1,s_ig1,m_i_3,m_I_0,g_U_0,l_u_3,r_v_3") = .ok b!"muemuetkritkungphunnuengsingmimi-ngulurue"
#guard romanStr false (ofD b!"k_Wn0,l_Wy0,m_Wy3") = .ok b!"koenloeimoei"
#guard romanStr false (ofD b!"k_Wn0,l_Wy0,m_Wy3" ++ [Syl.blank] ++ ofD b!"?_Wy4") = .ok b!"koenloeimoei oei"
#guard romanStr false (ofD b!"k_Wn0,l_Wy0,m_Wy3" ++ [Syl.blank] ++ ofD b!"?_Wy4" ++ [Syl.lit 20 u!"hello"]) = .ok b!"koenloeimoei oei(hello)"
#guard romanStr false (ofD b!"s_a_1,g_A_1") = .ok b!"sa-nga"
#guard romanStr false (ofD b!"b_ag0,?_Cn0") = .ok b!"bang-on"
#guard romanStr false (ofD b!"s_a_1,?_At1") = .ok b!"sa-at"
#guard romanStr false (ofD b!"s_am4,?_Ag0") = .ok b!"sam-ang"
#guard delimStr phoneticSyl ch!" " (ofD b!"k_ok1") = .ok b!"kohk1"
#guard delimStr phoneticSyl ch!" " (ofD b!"k_ok1" ++ ofD b!"t_on2") = .ok b!"kohk1 tohn2"
#guard delimStr phoneticSyl ch!" " (ofD b!"k_ok1" ++ ofD b!"t_on2" ++ ofD b!"h_U_4") = .ok b!"kohk1 tohn2 huw4"
#guard delimStr phoneticSyl ch!" " (ofD b!"k_ok1" ++ ofD b!"t_on2" ++ ofD b!"h_U_4" ++ ofD b!"kwAg0") = .ok b!"kohk1 tohn2 huw4 kwaang0"
#guard delimStr phoneticSyl ch!" " (ofD b!"k_ok1" ++ ofD b!"t_on2" ++ ofD b!"h_U_4" ++ ofD b!"kwAg0" ++ ofD b!"l_Yw4") = .ok b!"kohk1 tohn2 huw4 kwaang0 liaaw4"
#guard delimStr phoneticSyl ch!" " (ofD b!"k_ok1" ++ ofD b!"t_on2" ++ ofD b!"h_U_4" ++ ofD b!"kwAg0" ++ ofD b!"l_Yw4" ++ ofD b!"l_c_3") = .ok b!"kohk1 tohn2 huw4 kwaang0 liaaw4 laoh3"
#guard delimStr phoneticSyl ch!" " (ofD b!"k_ok1" ++ ofD b!"t_on2" ++ ofD b!"h_U_4" ++ ofD b!"kwAg0" ++ ofD b!"l_Yw4" ++ ofD b!"l_c_3" ++ ofD b!"r_Cg3") = .ok b!"kohk1 tohn2 huw4 kwaang0 liaaw4 laoh3 raowng3"
#guard delimStr phoneticSyl ch!" " (ofD b!"k_ok1" ++ ofD b!"t_on2" ++ ofD b!"h_U_4" ++ ofD b!"kwAg0" ++ ofD b!"l_Yw4" ++ ofD b!"l_c_3" ++ ofD b!"r_Cg3" ++ ofD b!"p_en0") = .ok b!"kohk1 tohn2 huw4 kwaang0 liaaw4 laoh3 raowng3 pehn0"
#guard delimStr phoneticSyl ch!" " (ofD b!"k_ok1" ++ ofD b!"t_on2" ++ ofD b!"h_U_4" ++ ofD b!"kwAg0" ++ ofD b!"l_Yw4" ++ ofD b!"l_c_3" ++ ofD b!"r_Cg3" ++ ofD b!"p_en0" ++ ofD b!"t_A_0") = .ok b!"kohk1 tohn2 huw4 kwaang0 liaaw4 laoh3 raowng3 pehn0 taa0"
#guard delimStr phoneticSyl ch!" " (ofD b!"k_ok1" ++ ofD b!"t_on2" ++ ofD b!"h_U_4" ++ ofD b!"kwAg0" ++ ofD b!"l_Yw4" ++ ofD b!"l_c_3" ++ ofD b!"r_Cg3" ++ ofD b!"p_en0" ++ ofD b!"t_A_0" ++ ofD b!"s_xp2") = .ok b!"kohk1 tohn2 huw4 kwaang0 liaaw4 laoh3 raowng3 pehn0 taa0 saehp2"
#guard delimStr phoneticSyl ch!" " (ofD b!"l_a_3,l_an0,l_an1,l_A_3") = .ok b!"lah3 lahn0 lahn1 laa3"
#guard delimStr phoneticSyl ch!" " (ofD b!"cray0,cray2,c_Ay4,c_ay1,k_ay1,crA_0,cram2,m_Ay3,m_ay4,l_aw2") = .ok b!"khrahy0 khrahy2 khaay4 khahy1 kahy1 khraa0 khrahm2 maay3 mahy4 lahw2"
#guard delimStr phoneticSyl ch!" " (ofD b!"m_Xw0,l_x_3,d_ek1,l_E_1,l_en2,j_w_1,j_W_0,klZ_0,d_Wn0,klZk1,c_T_2,klig2,r_Tm2,r_Og0,r_Yn0") = .ok b!"maeew0 laeh3 dehk1 ley1 lehn2 joeh1 joee0 klueaa0 doeen0 klueaak1 khuaa2 klihng2 ruaam2 rowng0 riaan0"
#guard delimStr phoneticSyl ch!" " (ofD b!"m_V_0,m_Vt2,krIt1,k_ug2,P_Un3,n_vg1,s_ig1,m_i_3,m_I_0,g_U_0,l_u_3,r_v_3") = .ok b!"muee0 mueet2 kriyt1 kuhng2 phuwn3 nuehng1 sihng1 mih3 miy0 nguw0 luh3 rueh3"
#guard delimStr phoneticSyl ch!" " (ofD b!"k_Wn0,l_Wy0,m_Wy3") = .ok b!"koeen0 loeey0 moeey3"
#guard delimStr phoneticSyl ch!" " (ofD b!"k_Wn0,l_Wy0,m_Wy3" ++ [Syl.blank] ++ ofD b!"?_Wy4") = .ok b!"koeen0 loeey0 moeey3 oeey4"
#guard delimStr phoneticSyl ch!" " (ofD b!"k_Wn0,l_Wy0,m_Wy3" ++ [Syl.blank] ++ ofD b!"?_Wy4" ++ [Syl.lit 20 u!"hello"]) = .ok b!"koeen0 loeey0 moeey3 oeey4 (hello)"
#guard delimStr rawSyl ch!"," (ofD b!"k_ok1@2") = .ok b!"k_ok1@2"
#guard delimStr rawSyl ch!"," (ofD b!"k_ok1@2" ++ ofD b!"t_on2@5") = .ok b!"k_ok1@2,t_on2@5"
#guard delimStr rawSyl ch!"," (ofD b!"k_ok1@2" ++ ofD b!"t_on2@5" ++ ofD b!"h_U_4@7") = .ok b!"k_ok1@2,t_on2@5,h_U_4@7"
#guard delimStr rawSyl ch!"," (ofD b!"k_ok1@2" ++ ofD b!"t_on2@5" ++ ofD b!"h_U_4@7" ++ ofD b!"kwAg0@11") = .ok b!"k_ok1@2,t_on2@5,h_U_4@7,kwAg0@11"
#guard delimStr rawSyl ch!"," (ofD b!"k_ok1@2" ++ ofD b!"t_on2@5" ++ ofD b!"h_U_4@7" ++ ofD b!"kwAg0@11" ++ ofD b!"l_Yw4@17") = .ok b!"k_ok1@2,t_on2@5,h_U_4@7,kwAg0@11,l_Yw4@17"
#guard delimStr rawSyl ch!"," (ofD b!"k_ok1@2" ++ ofD b!"t_on2@5" ++ ofD b!"h_U_4@7" ++ ofD b!"kwAg0@11" ++ ofD b!"l_Yw4@17" ++ ofD b!"l_c_3@21") = .ok b!"k_ok1@2,t_on2@5,h_U_4@7,kwAg0@11,l_Yw4@17,l_c_3@21"
#guard delimStr rawSyl ch!"," (ofD b!"k_ok1@2" ++ ofD b!"t_on2@5" ++ ofD b!"h_U_4@7" ++ ofD b!"kwAg0@11" ++ ofD b!"l_Yw4@17" ++ ofD b!"l_c_3@21" ++ ofD b!"r_Cg3@25") = .ok b!"k_ok1@2,t_on2@5,h_U_4@7,kwAg0@11,l_Yw4@17,l_c_3@21,r_Cg3@25"
#guard delimStr rawSyl ch!"," (ofD b!"k_ok1@2" ++ ofD b!"t_on2@5" ++ ofD b!"h_U_4@7" ++ ofD b!"kwAg0@11" ++ ofD b!"l_Yw4@17" ++ ofD b!"l_c_3@21" ++ ofD b!"r_Cg3@25" ++ ofD b!"p_en0@29") = .ok b!"k_ok1@2,t_on2@5,h_U_4@7,kwAg0@11,l_Yw4@17,l_c_3@21,r_Cg3@25,p_en0@29"
#guard delimStr rawSyl ch!"," (ofD b!"k_ok1@2" ++ ofD b!"t_on2@5" ++ ofD b!"h_U_4@7" ++ ofD b!"kwAg0@11" ++ ofD b!"l_Yw4@17" ++ ofD b!"l_c_3@21" ++ ofD b!"r_Cg3@25" ++ ofD b!"p_en0@29" ++ ofD b!"t_A_0@31") = .ok b!"k_ok1@2,t_on2@5,h_U_4@7,kwAg0@11,l_Yw4@17,l_c_3@21,r_Cg3@25,p_en0@29,t_A_0@31"
#guard delimStr rawSyl ch!"," (ofD b!"k_ok1@2" ++ ofD b!"t_on2@5" ++ ofD b!"h_U_4@7" ++ ofD b!"kwAg0@11" ++ ofD b!"l_Yw4@17" ++ ofD b!"l_c_3@21" ++ ofD b!"r_Cg3@25" ++ ofD b!"p_en0@29" ++ ofD b!"t_A_0@31" ++ ofD b!"s_xp2@35") = .ok b!"k_ok1@2,t_on2@5,h_U_4@7,kwAg0@11,l_Yw4@17,l_c_3@21,r_Cg3@25,p_en0@29,t_A_0@31,s_xp2@35"
#guard delimStr rawSyl ch!"," (ofD b!"l_a_3@2,l_an0@5,l_an1@10,l_A_3@13") = .ok b!"l_a_3@2,l_an0@5,l_an1@10,l_A_3@13"
#guard delimStr rawSyl ch!"," (ofD b!"cray0@3,cray2@7,c_Ay4@10,c_ay1@13,k_ay1@16,crA_0@19,cram2@23,m_Ay3@26,m_ay4@29,l_aw2@33") = .ok b!"cray0@3,cray2@7,c_Ay4@10,c_ay1@13,k_ay1@16,crA_0@19,cram2@23,m_Ay3@26,m_ay4@29,l_aw2@33"
#guard delimStr rawSyl ch!"," (ofD b!"m_Xw0@3,l_x_3@6,d_ek1@10,l_E_1@14,l_en2@18,j_w_1@22,j_W_0@25,klZ_0@30,d_Wn0@34,klZk1@40,c_T_2@44,klig2@49,r_Tm2@53,r_Og0@56,r_Yn0@61") = .ok b!"m_Xw0@3,l_x_3@6,d_ek1@10,l_E_1@14,l_en2@18,j_w_1@22,j_W_0@25,klZ_0@30,d_Wn0@34,klZk1@40,c_T_2@44,klig2@49,r_Tm2@53,r_Og0@56,r_Yn0@61"
#guard delimStr rawSyl ch!"," (ofD b!"m_V_0@3,m_Vt2@6,krIt1@10,k_ug2@14,P_Un3@18,n_vg1@23,s_ig1@27,m_i_3@29,m_I_0@31,g_U_0@33,l_u_3@35,r_v_3@37") = .ok b!"m_V_0@3,m_Vt2@6,krIt1@10,k_ug2@14,P_Un3@18,n_vg1@23,s_ig1@27,m_i_3@29,m_I_0@31,g_U_0@33,l_u_3@35,r_v_3@37"
#guard delimStr rawSyl ch!"," (ofD b!"k_Wn0@4,l_Wy0@7,m_Wy3@11") = .ok b!"k_Wn0@4,l_Wy0@7,m_Wy3@11"
#guard delimStr rawSyl ch!"," (ofD b!"k_Wn0@4,l_Wy0@7,m_Wy3@11" ++ [Syl.blank] ++ ofD b!"?_Wy4@15") = .ok b!"k_Wn0@4,l_Wy0@7,m_Wy3@11 ?_Wy4@15"
#guard delimStr rawSyl ch!"," (ofD b!"k_Wn0@4,l_Wy0@7,m_Wy3@11" ++ [Syl.blank] ++ ofD b!"?_Wy4@15" ++ [Syl.lit 20 u!"hello"]) = .ok b!"k_Wn0@4,l_Wy0@7,m_Wy3@11 ?_Wy4@15,(hello)@20"
#guard delimStr soundexSyl ch!"-" (ofD b!"k_ok1@2") = .ok b!"kok"
#guard delimStr soundexSyl ch!"-" (ofD b!"k_ok1@2" ++ ofD b!"t_on2@5") = .ok b!"kok-ton"
#guard delimStr soundexSyl ch!"-" (ofD b!"k_ok1@2" ++ ofD b!"t_on2@5" ++ ofD b!"h_U_4@7") = .ok b!"kok-ton-hu_"
#guard delimStr soundexSyl ch!"-" (ofD b!"k_ok1@2" ++ ofD b!"t_on2@5" ++ ofD b!"h_U_4@7" ++ ofD b!"kwAg0@11") = .ok b!"kok-ton-hu_-kag"
#guard delimStr soundexSyl ch!"-" (ofD b!"k_ok1@2" ++ ofD b!"t_on2@5" ++ ofD b!"h_U_4@7" ++ ofD b!"kwAg0@11" ++ ofD b!"l_Yw4@17") = .ok b!"kok-ton-hu_-kag-lyw"
#guard delimStr soundexSyl ch!"-" (ofD b!"k_ok1@2" ++ ofD b!"t_on2@5" ++ ofD b!"h_U_4@7" ++ ofD b!"kwAg0@11" ++ ofD b!"l_Yw4@17" ++ ofD b!"l_c_3@21") = .ok b!"kok-ton-hu_-kag-lyw-lc_"
#guard delimStr soundexSyl ch!"-" (ofD b!"k_ok1@2" ++ ofD b!"t_on2@5" ++ ofD b!"h_U_4@7" ++ ofD b!"kwAg0@11" ++ ofD b!"l_Yw4@17" ++ ofD b!"l_c_3@21" ++ ofD b!"r_Cg3@25") = .ok b!"kok-ton-hu_-kag-lyw-lc_-lcg"
#guard delimStr soundexSyl ch!"-" (ofD b!"k_ok1@2" ++ ofD b!"t_on2@5" ++ ofD b!"h_U_4@7" ++ ofD b!"kwAg0@11" ++ ofD b!"l_Yw4@17" ++ ofD b!"l_c_3@21" ++ ofD b!"r_Cg3@25" ++ ofD b!"p_en0@29") = .ok b!"kok-ton-hu_-kag-lyw-lc_-lcg-pen"
#guard delimStr soundexSyl ch!"-" (ofD b!"k_ok1@2" ++ ofD b!"t_on2@5" ++ ofD b!"h_U_4@7" ++ ofD b!"kwAg0@11" ++ ofD b!"l_Yw4@17" ++ ofD b!"l_c_3@21" ++ ofD b!"r_Cg3@25" ++ ofD b!"p_en0@29" ++ ofD b!"t_A_0@31") = .ok b!"kok-ton-hu_-kag-lyw-lc_-lcg-pen-ta_"
#guard delimStr soundexSyl ch!"-" (ofD b!"k_ok1@2" ++ ofD b!"t_on2@5" ++ ofD b!"h_U_4@7" ++ ofD b!"kwAg0@11" ++ ofD b!"l_Yw4@17" ++ ofD b!"l_c_3@21" ++ ofD b!"r_Cg3@25" ++ ofD b!"p_en0@29" ++ ofD b!"t_A_0@31" ++ ofD b!"s_xp2@35") = .ok b!"kok-ton-hu_-kag-lyw-lc_-lcg-pen-ta_-sxp"
#guard delimStr soundexSyl ch!"-" (ofD b!"l_a_3@2,l_an0@5,l_an1@10,l_A_3@13") = .ok b!"la_-lan-lan-la_"
#guard delimStr soundexSyl ch!"-" (ofD b!"cray0@3,cray2@7,c_Ay4@10,c_ay1@13,k_ay1@16,crA_0@19,cram2@23,m_Ay3@26,m_ay4@29,l_aw2@33") = .ok b!"cay-cay-cay-cay-kay-ca_-cam-may-may-law"
#guard delimStr soundexSyl ch!"-" (ofD b!"m_Xw0@3,l_x_3@6,d_ek1@10,l_E_1@14,l_en2@18,j_w_1@22,j_W_0@25,klZ_0@30,d_Wn0@34,klZk1@40,c_T_2@44,klig2@49,r_Tm2@53,r_Og0@56,r_Yn0@61") = .ok b!"mxw-lx_-dek-le_-len-jw_-jw_-kz_-dwn-kzk-ct_-kig-ltm-log-lyn"
#guard delimStr soundexSyl ch!"-" (ofD b!"m_V_0@3,m_Vt2@6,krIt1@10,k_ug2@14,P_Un3@18,n_vg1@23,s_ig1@27,m_i_3@29,m_I_0@31,g_U_0@33,l_u_3@35,r_v_3@37") = .ok b!"mv_-mvt-kit-kug-Pun-nvg-sig-mi_-mi_-gu_-lu_-lv_"
#guard delimStr soundexSyl ch!"-" (ofD b!"k_Wn0@4,l_Wy0@7,m_Wy3@11") = .ok b!"kwn-lwy-mwy"
#guard delimStr soundexSyl ch!"-" (ofD b!"k_Wn0@4,l_Wy0@7,m_Wy3@11" ++ [Syl.blank] ++ ofD b!"?_Wy4@15") = .ok b!"kwn-lwy-mwy ?wy"
#guard delimStr soundexSyl ch!"-" (ofD b!"k_Wn0@4,l_Wy0@7,m_Wy3@11" ++ [Syl.blank] ++ ofD b!"?_Wy4@15" ++ [Syl.lit 20 u!"hello"]) = .ok b!"kwn-lwy-mwy ?wy-(hello)"
#guard jsonStr thaiSyl (ofD b!"k_ok1") = .ok b!"[\"กก\"]"
#guard jsonStr thaiSyl (ofD b!"k_ok1" ++ ofD b!"t_on2") = .ok b!"[\"กก\",\"ต้น\"]"
#guard jsonStr thaiSyl (ofD b!"k_ok1" ++ ofD b!"t_on2" ++ ofD b!"h_U_4") = .ok b!"[\"กก\",\"ต้น\",\"หู\"]"
#guard jsonStr thaiSyl (ofD b!"k_ok1" ++ ofD b!"t_on2" ++ ofD b!"h_U_4" ++ ofD b!"kwAg0") = .ok b!"[\"กก\",\"ต้น\",\"หู\",\"กฺวาง\"]"
#guard jsonStr thaiSyl (ofD b!"k_ok1" ++ ofD b!"t_on2" ++ ofD b!"h_U_4" ++ ofD b!"kwAg0" ++ ofD b!"l_Yw4") = .ok b!"[\"กก\",\"ต้น\",\"หู\",\"กฺวาง\",\"เหฺลียว\"]"
#guard jsonStr thaiSyl (ofD b!"k_ok1" ++ ofD b!"t_on2" ++ ofD b!"h_U_4" ++ ofD b!"kwAg0" ++ ofD b!"l_Yw4" ++ ofD b!"l_c_3") = .ok b!"[\"กก\",\"ต้น\",\"หู\",\"กฺวาง\",\"เหฺลียว\",\"เลาะ\"]"
#guard jsonStr thaiSyl (ofD b!"k_ok1" ++ ofD b!"t_on2" ++ ofD b!"h_U_4" ++ ofD b!"kwAg0" ++ ofD b!"l_Yw4" ++ ofD b!"l_c_3" ++ ofD b!"r_Cg3") = .ok b!"[\"กก\",\"ต้น\",\"หู\",\"กฺวาง\",\"เหฺลียว\",\"เลาะ\",\"ร้อง\"]"
#guard jsonStr thaiSyl (ofD b!"k_ok1" ++ ofD b!"t_on2" ++ ofD b!"h_U_4" ++ ofD b!"kwAg0" ++ ofD b!"l_Yw4" ++ ofD b!"l_c_3" ++ ofD b!"r_Cg3" ++ ofD b!"p_en0") = .ok b!"[\"กก\",\"ต้น\",\"หู\",\"กฺวาง\",\"เหฺลียว\",\"เลาะ\",\"ร้อง\",\"เป็น\"]"
#guard jsonStr thaiSyl (ofD b!"k_ok1" ++ ofD b!"t_on2" ++ ofD b!"h_U_4" ++ ofD b!"kwAg0" ++ ofD b!"l_Yw4" ++ ofD b!"l_c_3" ++ ofD b!"r_Cg3" ++ ofD b!"p_en0" ++ ofD b!"t_A_0") = .ok b!"[\"กก\",\"ต้น\",\"หู\",\"กฺวาง\",\"เหฺลียว\",\"เลาะ\",\"ร้อง\",\"เป็น\",\"ตา\"]"
#guard jsonStr thaiSyl (ofD b!"k_ok1" ++ ofD b!"t_on2" ++ ofD b!"h_U_4" ++ ofD b!"kwAg0" ++ ofD b!"l_Yw4" ++ ofD b!"l_c_3" ++ ofD b!"r_Cg3" ++ ofD b!"p_en0" ++ ofD b!"t_A_0" ++ ofD b!"s_xp2") = .ok b!"[\"กก\",\"ต้น\",\"หู\",\"กฺวาง\",\"เหฺลียว\",\"เลาะ\",\"ร้อง\",\"เป็น\",\"ตา\",\"แซ่บ\"]"
#guard jsonStr thaiSyl (ofD b!"l_a_3,l_an0,l_an1,l_A_3") = .ok b!"[\"ละ\",\"ลัน\",\"หฺลั่น\",\"ล้า\"]"
#guard jsonStr thaiSyl (ofD b!"cray0,cray2,c_Ay4,c_ay1,k_ay1,crA_0,cram2,m_Ay3,m_ay4,l_aw2") = .ok b!"[\"คฺรัย\",\"คฺรั่ย\",\"ขาย\",\"ขั่ย\",\"กั่ย\",\"คฺรา\",\"คฺรั่ม\",\"ม้าย\",\"หฺมัย\",\"เล่า\"]"
#guard jsonStr thaiSyl (ofD b!"m_Xw0,l_x_3,d_ek1,l_E_1,l_en2,j_w_1,j_W_0,klZ_0,d_Wn0,klZk1,c_T_2,klig2,r_Tm2,r_Og0,r_Yn0") = .ok b!"[\"แมว\",\"และ\",\"เด็ก\",\"เหฺล่\",\"เล่น\",\"เจอะ\",\"เจอ\",\"เกฺลือ\",\"เดิน\",\"เกฺลือก\",\"คั่ว\",\"กฺลิ้ง\",\"ร่วม\",\"โรง\",\"เรียน\"]"
#guard jsonStr thaiSyl (ofD b!"m_V_0,m_Vt2,krIt1,k_ug2,P_Un3,n_vg1,s_ig1,m_i_3,m_I_0,g_U_0,l_u_3,r_v_3") = .ok b!"[\"มือ\",\"มืด\",\"กฺรีด\",\"กุ้ง\",\"พู้น\",\"หฺนึ่ง\",\"สิ่ง\",\"มิ\",\"มี\",\"งู\",\"ลุ\",\"รึ\"]"
#guard jsonStr thaiSyl (ofD b!"k_Wn0,l_Wy0,m_Wy3") = .ok b!"[\"เกิน\",\"เลย\",\"เม้ย\"]"
#guard jsonStr thaiSyl (ofD b!"k_Wn0,l_Wy0,m_Wy3" ++ [Syl.blank] ++ ofD b!"?_Wy4") = .ok b!"[\"เกิน\",\"เลย\",\"เม้ย\",\" \",\"เอ๋ย\"]"
#guard jsonStr thaiSyl (ofD b!"k_Wn0,l_Wy0,m_Wy3" ++ [Syl.blank] ++ ofD b!"?_Wy4" ++ [Syl.lit 20 u!"hello"]) = .ok b!"[\"เกิน\",\"เลย\",\"เม้ย\",\" \",\"เอ๋ย\",\"(hello)\"]"

/-! ## output/tests/test-list.cxx -/
def strList : List SylString := [ofD b!"P_E_0@2,l_A_0@4", ofD b!"Plaw0@4", ofD b!"P_a_3@-4,l_aw0@4"]
#guard delimList thaiSyl ch!"-" strList = .ok b!"เพ-ลา\nเพฺลา\nพะ-เลา\n"
#guard romanList false strList = .ok b!"phela\nphlao\nphalao\n"
#guard romanList true strList = .ok b!"Phela\nPhlao\nPhalao\n"
#guard jsonList thaiSyl strList = .ok b!"[[\"เพ\",\"ลา\"],[\"เพฺลา\"],[\"พะ\",\"เลา\"]]"
#guard gjsonList thaiSyl strList = .ok b!"[[[[\"เพ\",\"ลา\"],[\"พะ\",\"เลา\"],[\"เพฺลา\"]]]]"

/-! ## output/tests/test-lattice.cxx -/
#guard gjsonLatt thaiSyl [[frac [ofD b!"m_A_0", ofD b!"m_At2"], frac [ofD b!"trA_0", ofD b!"t_a_1,r_A_0"]], [frac [ofD b!"m_At2,r_A_0"]]] = .ok b!"[[[[\"มา\"],[\"มาด\"]],[[\"ตะ\",\"รา\"],[\"ตฺรา\"]]],[[[\"มาด\",\"รา\"]]]]"
#guard gjsonLatt thaiSyl [[frac [ofD b!"j_at1,r_at3"]], [frac [ofD b!"j_at1"], frac [ofD b!"t_u_1", ofD b!"t_un0"], frac [ofD b!"r_at3"]]] = .ok b!"[[[[\"จัด\",\"รัด\"]]],[[[\"จัด\"]],[[\"ตุ\"],[\"ตุน\"]],[[\"รัด\"]]]]"
#guard gjsonLatt thaiSyl [[frac [ofD b!"c_a_1,n_om4", ofD b!"c_a_1,n_om0"], frac [ofD b!"?_op1"], frac [ofD b!"krCp1", ofD b!"k_Cn0,?_op1"]], [frac [ofD b!"c_a_1,n_om4", ofD b!"c_a_1,n_om0"], frac [ofD b!"?_a_1"], frac [ofD b!"b_ok1,r_Cp2"]], [frac [ofD b!"c_on4,m_Cp2"], frac [ofD b!"krCp1", ofD b!"k_Cn0,?_op1"]], [frac [ofD b!"c_on4,m_C_0,b_ok1,r_Cp2"]]] = .ok b!"[[[[\"ขะ\",\"นม\"],[\"ขะ\",\"หฺนม\"]],[[\"อบ\"]],[[\"กอน\",\"อบ\"],[\"กฺรอบ\"]]],[[[\"ขะ\",\"นม\"],[\"ขะ\",\"หฺนม\"]],[[\"อะ\"]],[[\"บก\",\"รอบ\"]]],[[[\"ขน\",\"มอบ\"]],[[\"กอน\",\"อบ\"],[\"กฺรอบ\"]]],[[[\"ขน\",\"มอ\",\"บก\",\"รอบ\"]]]]"

/-! ## lattice/tests/test-prondag.cxx -/
def khanom : PronunDAG := PronunDAG.ofStrings [ofD b!"c_a_1@-3,n_om4@3" ++ ofD b!"?_op1@5" ++ ofD b!"krCp1@9",
  ofD b!"c_a_1@1,n_om0@3" ++ ofD b!"?_op1@5" ++ ofD b!"krCp1@9",
  ofD b!"c_a_1@-3,n_om4@3" ++ ofD b!"?_op1@5" ++ ofD b!"k_Cn0@7,?_op1@9",
  ofD b!"c_a_1@1,n_om0@3" ++ ofD b!"?_op1@5" ++ ofD b!"k_Cn0@7,?_op1@9",
  ofD b!"c_a_1@-3,n_om4@3" ++ ofD b!"?_a_1@4" ++ ofD b!"b_ok1@6,r_Cp2@9",
  ofD b!"c_a_1@1,n_om0@3" ++ ofD b!"?_a_1@4" ++ ofD b!"b_ok1@6,r_Cp2@9",
  ofD b!"c_on4@2,m_Cp2@5" ++ ofD b!"krCp1@9",
  ofD b!"c_on4@2,m_Cp2@5" ++ ofD b!"k_Cn0@7,?_op1@9",
  ofD b!"c_on4@2,m_C_0@4,b_ok1@6,r_Cp2@9"]
#guard onDag (.ok khanom) (fun d => d.isEdgeExist (0) (-3) (syl b!"c_a_1"))
#guard onDag (.ok khanom) (fun d => d.isEdgeExist (0) (1) (syl b!"c_a_1"))
#guard onDag (.ok khanom) (fun d => d.isEdgeExist (0) (2) (syl b!"c_on4"))
#guard onDag (.ok khanom) (fun d => d.isEdgeExist (-3) (3) (syl b!"n_om4"))
#guard onDag (.ok khanom) (fun d => d.isEdgeExist (1) (3) (syl b!"n_om0"))
#guard onDag (.ok khanom) (fun d => d.isEdgeExist (2) (5) (syl b!"m_Cp2"))
#guard onDag (.ok khanom) (fun d => d.isEdgeExist (2) (4) (syl b!"m_C_0"))
#guard onDag (.ok khanom) (fun d => d.isEdgeExist (3) (5) (syl b!"?_op1"))
#guard onDag (.ok khanom) (fun d => d.isEdgeExist (3) (4) (syl b!"?_a_1"))
#guard onDag (.ok khanom) (fun d => d.isEdgeExist (4) (6) (syl b!"b_ok1"))
#guard onDag (.ok khanom) (fun d => d.isEdgeExist (5) (9) (syl b!"krCp1"))
#guard onDag (.ok khanom) (fun d => d.isEdgeExist (5) (7) (syl b!"k_Cn0"))
#guard onDag (.ok khanom) (fun d => d.isEdgeExist (7) (9) (syl b!"?_op1"))
#guard onDag (.ok khanom) (fun d => d.isEdgeExist (6) (9) (syl b!"r_Cp2"))
#guard onDag (.ok khanom) (fun d => !d.isEdgeExist (0) (-3) (syl b!"n_om4"))
#guard onDag (.ok khanom) (fun d => !d.isEdgeExist (1) (2) (syl b!"?_op1"))
#guard onDag (.ok khanom) (fun d => !d.isEdgeExist (0) (5) (syl b!"m_Cp2"))
#guard onDag (.ok khanom.toFrac) (fun d => d.isEdgeExist (0) (-3) (fracs (-3) [[b!"c_a_1"]]))
#guard onDag (.ok khanom.toFrac) (fun d => d.isEdgeExist (0) (1) (fracs 1 [[b!"c_a_1"]]))
#guard onDag (.ok khanom.toFrac) (fun d => d.isEdgeExist (0) (2) (fracs 2 [[b!"c_on4"]]))
#guard onDag (.ok khanom.toFrac) (fun d => d.isEdgeExist (-3) (3) (fracs 3 [[b!"n_om4"]]))
#guard onDag (.ok khanom.toFrac) (fun d => d.isEdgeExist (1) (3) (fracs 3 [[b!"n_om0"]]))
#guard onDag (.ok khanom.toFrac) (fun d => d.isEdgeExist (2) (5) (fracs 5 [[b!"m_Cp2"]]))
#guard onDag (.ok khanom.toFrac) (fun d => d.isEdgeExist (2) (4) (fracs 4 [[b!"m_C_0"]]))
#guard onDag (.ok khanom.toFrac) (fun d => d.isEdgeExist (3) (5) (fracs 5 [[b!"?_op1"]]))
#guard onDag (.ok khanom.toFrac) (fun d => d.isEdgeExist (3) (4) (fracs 4 [[b!"?_a_1"]]))
#guard onDag (.ok khanom.toFrac) (fun d => d.isEdgeExist (4) (6) (fracs 6 [[b!"b_ok1"]]))
#guard onDag (.ok khanom.toFrac) (fun d => d.isEdgeExist (5) (9) (fracs 9 [[b!"krCp1"]]))
#guard onDag (.ok khanom.toFrac) (fun d => d.isEdgeExist (5) (7) (fracs 7 [[b!"k_Cn0"]]))
#guard onDag (.ok khanom.toFrac) (fun d => d.isEdgeExist (7) (9) (fracs 9 [[b!"?_op1"]]))
#guard onDag (.ok khanom.toFrac) (fun d => d.isEdgeExist (6) (9) (fracs 9 [[b!"r_Cp2"]]))
#guard onDag (.ok khanom.toFrac) (fun d => !d.isEdgeExist (0) (-3) (fracs (-3) [[b!"n_om4"]]))
#guard onDag (.ok khanom.toFrac) (fun d => !d.isEdgeExist (1) (2) (fracs 2 [[b!"?_op1"]]))
#guard onDag (.ok khanom.toFrac) (fun d => !d.isEdgeExist (0) (5) (fracs 5 [[b!"m_Cp2"]]))
#guard onDag (khanom.toFrac.mergeSingles) (fun d => d.isEdgeExist (0) (3) (fracs 3 [[b!"c_a_1", b!"n_om4"]]))
#guard onDag (khanom.toFrac.mergeSingles) (fun d => d.isEdgeExist (0) (3) (fracs 3 [[b!"c_a_1", b!"n_om0"]]))
#guard onDag (khanom.toFrac.mergeSingles) (fun d => d.isEdgeExist (0) (2) (fracs 2 [[b!"c_on4"]]))
#guard onDag (khanom.toFrac.mergeSingles) (fun d => d.isEdgeExist (2) (5) (fracs 5 [[b!"m_Cp2"]]))
#guard onDag (khanom.toFrac.mergeSingles) (fun d => d.isEdgeExist (2) (4) (fracs 4 [[b!"m_C_0"]]))
#guard onDag (khanom.toFrac.mergeSingles) (fun d => d.isEdgeExist (3) (5) (fracs 5 [[b!"?_op1"]]))
#guard onDag (khanom.toFrac.mergeSingles) (fun d => d.isEdgeExist (3) (4) (fracs 4 [[b!"?_a_1"]]))
#guard onDag (khanom.toFrac.mergeSingles) (fun d => d.isEdgeExist (4) (9) (fracs 9 [[b!"b_ok1", b!"r_Cp2"]]))
#guard onDag (khanom.toFrac.mergeSingles) (fun d => d.isEdgeExist (5) (9) (fracs 9 [[b!"krCp1"]]))
#guard onDag (khanom.toFrac.mergeSingles) (fun d => d.isEdgeExist (5) (9) (fracs 9 [[b!"k_Cn0", b!"?_op1"]]))
#guard onDag (khanom.toFrac.mergeSingles) (fun d => !d.isEdgeExist (0) (-3) (fracs (-3) [[b!"c_a_1"]]))
#guard onDag (khanom.toFrac.mergeSingles) (fun d => !d.isEdgeExist (0) (1) (fracs 1 [[b!"c_a_1"]]))
#guard onDag (khanom.toFrac.mergeSingles) (fun d => !d.isEdgeExist (-3) (3) (fracs 3 [[b!"n_om4"]]))
#guard onDag (khanom.toFrac.mergeSingles) (fun d => !d.isEdgeExist (1) (3) (fracs 3 [[b!"n_om0"]]))
#guard onDag (khanom.toFrac.mergeSingles) (fun d => !d.isEdgeExist (5) (7) (fracs 7 [[b!"k_Cn0"]]))
#guard onDag (khanom.toFrac.mergeSingles) (fun d => !d.isEdgeExist (7) (9) (fracs 9 [[b!"?_op1"]]))
#guard onDag (khanom.toFrac.mergeSingles) (fun d => !d.isEdgeExist (4) (6) (fracs 6 [[b!"b_ok1"]]))
#guard onDag (khanom.toFrac.mergeSingles) (fun d => !d.isEdgeExist (6) (9) (fracs 9 [[b!"r_Cp2"]]))
#guard onDag (khanom.toFrac.mergeSingles) (fun d => !d.isEdgeExist (0) (-3) (fracs (-3) [[b!"n_om4"]]))
#guard onDag (khanom.toFrac.mergeSingles) (fun d => !d.isEdgeExist (1) (2) (fracs 2 [[b!"?_op1"]]))
#guard onDag (khanom.toFrac.mergeSingles) (fun d => !d.isEdgeExist (0) (5) (fracs 5 [[b!"m_Cp2"]]))
#guard onDag (khanom.fracDAG) (fun d => d.isEdgeExist (0) (2) (fracs 2 [[b!"c_on4"]]))
#guard onDag (khanom.fracDAG) (fun d => d.isEdgeExist (2) (5) (fracs 5 [[b!"m_Cp2"]]))
#guard onDag (khanom.fracDAG) (fun d => d.isEdgeExist (2) (4) (fracs 4 [[b!"m_C_0"]]))
#guard onDag (khanom.fracDAG) (fun d => d.isEdgeExist (3) (5) (fracs 5 [[b!"?_op1"]]))
#guard onDag (khanom.fracDAG) (fun d => d.isEdgeExist (3) (4) (fracs 4 [[b!"?_a_1"]]))
#guard onDag (khanom.fracDAG) (fun d => d.isEdgeExist (4) (9) (fracs 9 [[b!"b_ok1", b!"r_Cp2"]]))
#guard onDag (khanom.fracDAG) (fun d => d.isEdgeExist (5) (9) (fracs 9 [[b!"k_Cn0", b!"?_op1"], [b!"krCp1"]]))
#guard onDag (khanom.fracDAG) (fun d => !d.isEdgeExist (0) (3) (fracs 3 [[b!"c_a_1", b!"n_om4"]]))
#guard onDag (khanom.fracDAG) (fun d => !d.isEdgeExist (0) (3) (fracs 3 [[b!"c_a_1", b!"n_om0"]]))
#guard onDag (khanom.fracDAG) (fun d => !d.isEdgeExist (5) (9) (fracs 9 [[b!"krCp1"]]))
#guard onDag (khanom.fracDAG) (fun d => !d.isEdgeExist (5) (9) (fracs 9 [[b!"k_Cn0", b!"?_op1"]]))
#guard onDag (khanom.fracDAG) (fun d => !d.isEdgeExist (0) (-3) (fracs (-3) [[b!"c_a_1"]]))
#guard onDag (khanom.fracDAG) (fun d => !d.isEdgeExist (0) (1) (fracs 1 [[b!"c_a_1"]]))
#guard onDag (khanom.fracDAG) (fun d => !d.isEdgeExist (-3) (3) (fracs 3 [[b!"n_om4"]]))
#guard onDag (khanom.fracDAG) (fun d => !d.isEdgeExist (1) (3) (fracs 3 [[b!"n_om0"]]))
#guard onDag (khanom.fracDAG) (fun d => !d.isEdgeExist (5) (7) (fracs 7 [[b!"k_Cn0"]]))
#guard onDag (khanom.fracDAG) (fun d => !d.isEdgeExist (7) (9) (fracs 9 [[b!"?_op1"]]))
#guard onDag (khanom.fracDAG) (fun d => !d.isEdgeExist (4) (6) (fracs 6 [[b!"b_ok1"]]))
#guard onDag (khanom.fracDAG) (fun d => !d.isEdgeExist (6) (9) (fracs 9 [[b!"r_Cp2"]]))
#guard onDag (khanom.fracDAG) (fun d => !d.isEdgeExist (0) (-3) (fracs (-3) [[b!"n_om4"]]))
#guard onDag (khanom.fracDAG) (fun d => !d.isEdgeExist (1) (2) (fracs 2 [[b!"?_op1"]]))
#guard onDag (khanom.fracDAG) (fun d => !d.isEdgeExist (0) (5) (fracs 5 [[b!"m_Cp2"]]))

/-! ## dict/tests/test-dict.cxx -/
def testDict : Dict := dictOf b!"ปรารถนา\tprAt1@-4,t_a_1@-407,n_A_4@7\nสาม\ts_Am4@3\nสามารถ\ts_A_4@2,m_At2@6\n"
#guard found 20 (Match.new u!"สามารถปรารถนาได้" 0 testDict) = [(3, b!"s_Am4@3"), (6, b!"s_A_4@2,m_At2@6")]
#guard found 20 (Match.new u!"สามารถปรารถนาได้" 6 testDict) = [(13, b!"prAt1@-4,t_a_1@-407,n_A_4@7")]

/-! ## thpronun/tests/*.sh (no word breaks) -/
-- test-bhumi.sh
#guard prints exceptDict ch!"t" b!"ภูมิใจ" b!"พูม-จัย"
#guard prints exceptDict ch!"t" b!"ภูมิลำเนา" b!"พูม-ลัม-เนา"
#guard prints exceptDict ch!"t" b!"ภาคภูมิ" b!"พาก-พูม"
#guard prints exceptDict ch!"t" b!"ภูมิศาสตร์" b!"พู-มิ-สาด"
#guard prints exceptDict ch!"t" b!"ภูมิทัศน์" b!"พู-มิ-ทัด"
-- test-chaowana.sh
#guard prints exceptDict ch!"t" b!"มีเชาวน์" b!"มี-เชา"
#guard prints exceptDict ch!"t" b!"เวทางค์" b!"เว-ทาง"
#guard prints exceptDict ch!"t" b!"เสนางค์" b!"เส-นาง"
-- test-kaset.sh
-- test-petch.sh
#guard prints exceptDict ch!"t" b!"สรเพชญ" b!"สฺระ-เพ็ด"
#guard prints exceptDict ch!"t" b!"สรรเพชญ" b!"สัน-เพ็ด"
#guard prints exceptDict ch!"t" b!"สรรเพชญ์" b!"สัน-เพ็ด"
#guard prints exceptDict ch!"t" b!"สรรเพ็ชญ" b!"สัน-เพ็ด"
#guard prints exceptDict ch!"t" b!"สรรเพ็ชญ์" b!"สัน-เพ็ด"
#guard prints exceptDict ch!"t" b!"เพชฌฆาต" b!"เพ็ด-ชะ-คาด"
#guard prints exceptDict ch!"t" b!"เพชฉลูกรรม" b!"เพ็ด-ฉะ-หฺลู-กัม"
#guard prints exceptDict ch!"t" b!"เพชร" b!"เพ็ด"
#guard prints exceptDict ch!"t" b!"เพชรบุรี" b!"เพ็ด-บุ-รี"
#guard prints exceptDict ch!"t" b!"เพชรบูรณ์" b!"เพ็ด-ชะ-บูน"
#guard prints exceptDict ch!"t" b!"เพชรา" b!"เพ็ด-ชะ-รา"
-- test-rajgruh.sh
#guard prints exceptDict ch!"t" b!"ราชคฤห์" b!"ราด-ชะ-คฺรึ"
#guard prints exceptDict ch!"t" b!"สนานคฤห์" b!"สะ-หฺนาน-คฺรึ"
#guard prints exceptDict ch!"t" b!"รติคฤห์" b!"ระ-ติ-คฺรึ"
#guard prints exceptDict ch!"t" b!"คฤหัสถ์" b!"คะ-รึ-หัด"
-- test-thyroid.sh
#guard prints exceptDict ch!"t" b!"ไทร" b!"ซัย"
#guard prints exceptDict ch!"t" b!"ไทรบุรี" b!"ซัย-บุ-รี"
#guard prints exceptDict ch!"t" b!"ไทรอยด์" b!"ทัย-รอย"
#guard prints exceptDict ch!"t" b!"รีไทร์" b!"รี-ทัย"

end Thpronun.RepoTests

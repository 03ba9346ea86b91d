import Verif.Model.Utf

/-! # The shipped exception data (generated by tools/shipped.py from data/*.tsv, data/Makefile.am) -/

namespace Thpronun.Shipped

/-- data/ex-elong.tsv -/
def exElong : Str :=
  b!"กระเช้า\tkra_1@3,J_aw3@7\n" ++
  b!"เกล้า\tklAw2@5\n" ++
  b!"เก้า\tk_Aw2@4\n" ++
  b!"เจ้า\tj_Aw2@4\n" ++
  b!"เช้า\tJ_Aw3@4\n" ++
  b!"ใช้\tJ_Ay3@3\n" ++
  b!"ได้\td_Ay2@3\n" ++
  b!"ใต้\tt_Ay2@3\n" ++
  b!"เท้า\tT_Aw3@4\n" ++
  b!"น้ำ\tn_Am3@3\n" ++
  b!"เปล่า\tplAw1@5\n" ++
  b!"ไม้\tm_Ay3@3\n" ++
  b!"ร้องไห้\tr_Cg3@4,h_Ay2@7\n"

/-- data/ex-karan.tsv -/
def exKaran : Str :=
  b!"กษัตริย์\tk_a_1@1,s_at1@8\n" ++
  b!"เชาวน์\tJ_aw0@6\n" ++
  b!"รามเกียรติ์\tr_Am0@2,m_a_3@3,k_Yn0@11\n" ++
  b!"สิริกิติ์\ts_i_1@2,r_i_1@4,k_it1@9\n" ++
  b!"สุรเกียรติ์\ts_u_1@2,r_a_3@3,k_Yt1@11\n"

/-- data/ex-montho-d.tsv -/
def exMonthoD : Str :=
  b!"ฑังสะ\td_ag0@3,s_a_1@5\n" ++
  b!"ตัณฑุละ\tt_an0@3,d_u_1@5,l_a_3@7\n" ++
  b!"บัณฑิต\tb_an0@3,d_it1@6\n" ++
  b!"บัณฑิตย์\tb_an0@3,d_it1@8\n" ++
  b!"บัณฑุ\tb_an0@3,d_u_1@5\n" ++
  b!"บัณเฑาะก์\tb_an0@3,d_c_1@9\n" ++
  b!"บัณเฑาะว์\tb_an0@3,d_c_1@9\n" ++
  b!"บุณฑริก\tb_un0@3,d_a_1@4,r_ik3@7\n" ++
  b!"ปุณฑริก\tp_un0@3,d_a_1@4,r_ik3@7\n" ++
  b!"มณฑป\tm_on0@2,d_op1@4\n" ++
  b!"มรฑป\tm_C_0@1,r_a_3@2,d_op1@4\n" ++
  b!"เลฑฑุ\tl_Et2@3,d_u_1@5\n" ++
  b!"เลณฑุ\tl_En0@3,d_u_1@5\n" ++
  b!"กาฐมาณฑุ\tk_At1@3,m_An0@6,d_u_1@8\n" ++
  b!"มัณฑะเลย์\tm_an0@3,d_a_1@5,l_E_0@9\n"

/-- data/ex-misc.tsv -/
def exMisc : Str :=
  b!"ก็\tk_C_2@2\n" ++
  b!"คฤห์\tcrv_3@4\n" ++
  b!"ชคฤห์\tJ_a_3@1,crv_3@5\n" ++
  b!"เทอญ\tT_Wn0@4\n" ++
  b!"เทอม\tT_Wm0@4\n" ++
  b!"ภูมิ\tP_Um0@4;P_U_0@2,m_i_3@4\n" ++
  b!"ฤกษ์\tr_Wk2@4\n" ++
  b!"อย่า\ty_A_1@4\n" ++
  b!"อยาก\ty_Ak1@4\n" ++
  b!"อย่าง\ty_Ag1@5\n" ++
  b!"อยู่\ty_U_1@4\n"

/-- data/ex-multi-end.tsv -/
def exMultiEnd : Str :=
  b!"เกียรติ\tk_Yt1@7\n" ++
  b!"ปรารถนา\tprAt1@4,T_a_1@-407,n_A_4@7\n" ++
  b!"พรหม\tProm0@4\n" ++
  b!"พราหมณ์\tPrAm0@7\n" ++
  b!"สามารถ\ts_A_4@2,m_At2@6\n"

/-- data/ex-short.tsv -/
def exShort : Str :=
  b!"สรเพชญ\tsra_1@2,P_et3@6\n" ++
  b!"เพชญ\tP_et3@4\n" ++
  b!"เพชญ์\tP_et3@5\n" ++
  b!"เพ็ชญ\tP_et3@5\n" ++
  b!"เพชฌฆาต\tP_et3@3,J_a_3@4,c_At2@7\n" ++
  b!"เพชฉลู\tP_et3@3,J_a_1@-306,l_U_4@6\n" ++
  b!"เพชร\tP_et3@4;P_et3@2,J_a_3@4\n" ++
  b!"เพชรา\tP_et3@2,J_a_3@3,r_A_0@5\n"

/-- data/ex-tone.tsv -/
def exTone : Str :=
  b!"กำเนิด\tk_am0@2,n_Wt1@6\n" ++
  b!"กำราบ\tk_am0@2,r_Ap1@5\n" ++
  b!"จักรวรรดิ\tj_ak1@2,kra_1@4,w_at1@9\n" ++
  b!"จัตุรัส\tj_at1@2,t_u_1@4,r_at1@7\n" ++
  b!"จำรัส\tj_am0@2,r_at1@5\n" ++
  b!"ดำรัส\td_am0@2,r_at1@5\n" ++
  b!"ดำริ\td_am0@2,r_i_1@4\n" ++
  b!"ดิเรก\td_i_1@2,r_Ek1@5\n" ++
  b!"ดิลก\td_i_1@2,l_ok1@4\n" ++
  b!"ตำรวจ\tt_am0@2,r_Tt1@5\n" ++
  b!"ตำรับ\tt_am0@2,r_ap1@5\n" ++
  b!"ติลก\tt_i_1@2,l_ok1@4\n" ++
  b!"บัญญัติ\tb_an0@3,y_at1@7\n" ++
  b!"บำราบ\tb_am0@2,r_Ap1@5\n" ++
  b!"บุรุษ\tb_u_1@2,r_ut1@5\n" ++
  b!"ประมาท\tpra_1@3,m_At1@6\n" ++
  b!"ประโยค\tpra_1@3,y_Ok1@6\n" ++
  b!"ประโยชน์\tpra_1@3,y_Ot1@8\n" ++
  b!"ประวัติ\tpra_1@3,w_at1@7\n" ++
  b!"ศิริ\ts_i_1@2,r_i_1@4\n" ++
  b!"สำรวจ\ts_am4@2,r_Tt1@5\n" ++
  b!"สำเร็จ\ts_am4@2,r_et1@6\n" ++
  b!"สิเน่หา\ts_i_1@2,n_E_1@5,h_A_4@7\n" ++
  b!"สิริ\ts_i_1@2,r_i_1@4\n" ++
  b!"อดิเรก\t?_a_1@1,d_i_1@3,r_Ek1@6\n" ++
  b!"อำมาตย์\t?_am0@2,m_At1@7\n"

/-- data/ex-tr-so.tsv -/
def exTrSo : Str :=
  b!"กายินทรีย์\tk_A_0@2,y_in0@5,s_I_0@10\n" ++
  b!"กาเยนทรีย์\tk_A_0@2,y_En0@5,s_I_0@10\n" ++
  b!"ฉะเชิงเทรา\tJ_a_1@2,J_Wg0@6,s_aw0@10\n" ++
  b!"ทรง\ts_og0@3\n" ++
  b!"ทรวง\ts_Tg0@4\n" ++
  b!"ทรวด\ts_Tt3@4\n" ++
  b!"ทรัพย์\ts_ap3@6\n" ++
  b!"ทรัพยากร\ts_ap3@3,P_a_3@4,y_A_0@6,k_Cn0@8\n" ++
  b!"ทราบ\ts_Ap2@4\n" ++
  b!"ทราม\ts_Am0@4\n" ++
  b!"ทราย\ts_Ay0@4\n" ++
  b!"ทรุด\ts_ut3@4\n" ++
  b!"เทริด\ts_Wt2@5\n" ++
  b!"แทรก\ts_Xk2@4\n" ++
  b!"โทรม\ts_Om0@4\n" ++
  b!"ไทร\ts_ay0@3\n" ++
  b!"ไทรอยด์\tT_ay0@2,r_Cy0@7\n" ++
  b!"นนทรี\tn_on0@2,s_I_0@5\n" ++
  b!"พุทรา\tP_ut3@2,s_A_0@5\n" ++
  b!"มัทรี\tm_at3@2,s_I_0@5\n" ++
  b!"อินทรี\t?_in0@3,s_I_0@6\n" ++
  b!"อินทรีย์\t?_in0@3,s_I_0@8\n"

/-- `EXCEPT_SRC`, data/Makefile.am -/
def exceptSrc : List Str := [exElong, exKaran, exMonthoD, exMisc, exMultiEnd, exShort, exTone, exTrSo]

/-- The words and data of except.tsv, in order: `cat $^ | LC_ALL=C sort -u`, data/Makefile.am
(that these are the lines is theorem `C48_file`). -/
def exceptTable : List (U16Str × Str) := [
  (u!"กระเช้า", b!"kra_1@3,J_aw3@7"),
  (u!"กษัตริย์", b!"k_a_1@1,s_at1@8"),
  (u!"กาฐมาณฑุ", b!"k_At1@3,m_An0@6,d_u_1@8"),
  (u!"กายินทรีย์", b!"k_A_0@2,y_in0@5,s_I_0@10"),
  (u!"กาเยนทรีย์", b!"k_A_0@2,y_En0@5,s_I_0@10"),
  (u!"กำราบ", b!"k_am0@2,r_Ap1@5"),
  (u!"กำเนิด", b!"k_am0@2,n_Wt1@6"),
  (u!"ก็", b!"k_C_2@2"),
  (u!"คฤห์", b!"crv_3@4"),
  (u!"จักรวรรดิ", b!"j_ak1@2,kra_1@4,w_at1@9"),
  (u!"จัตุรัส", b!"j_at1@2,t_u_1@4,r_at1@7"),
  (u!"จำรัส", b!"j_am0@2,r_at1@5"),
  (u!"ฉะเชิงเทรา", b!"J_a_1@2,J_Wg0@6,s_aw0@10"),
  (u!"ชคฤห์", b!"J_a_3@1,crv_3@5"),
  (u!"ฑังสะ", b!"d_ag0@3,s_a_1@5"),
  (u!"ดำรัส", b!"d_am0@2,r_at1@5"),
  (u!"ดำริ", b!"d_am0@2,r_i_1@4"),
  (u!"ดิลก", b!"d_i_1@2,l_ok1@4"),
  (u!"ดิเรก", b!"d_i_1@2,r_Ek1@5"),
  (u!"ตัณฑุละ", b!"t_an0@3,d_u_1@5,l_a_3@7"),
  (u!"ตำรวจ", b!"t_am0@2,r_Tt1@5"),
  (u!"ตำรับ", b!"t_am0@2,r_ap1@5"),
  (u!"ติลก", b!"t_i_1@2,l_ok1@4"),
  (u!"ทรง", b!"s_og0@3"),
  (u!"ทรวง", b!"s_Tg0@4"),
  (u!"ทรวด", b!"s_Tt3@4"),
  (u!"ทรัพยากร", b!"s_ap3@3,P_a_3@4,y_A_0@6,k_Cn0@8"),
  (u!"ทรัพย์", b!"s_ap3@6"),
  (u!"ทราบ", b!"s_Ap2@4"),
  (u!"ทราม", b!"s_Am0@4"),
  (u!"ทราย", b!"s_Ay0@4"),
  (u!"ทรุด", b!"s_ut3@4"),
  (u!"นนทรี", b!"n_on0@2,s_I_0@5"),
  (u!"น้ำ", b!"n_Am3@3"),
  (u!"บัญญัติ", b!"b_an0@3,y_at1@7"),
  (u!"บัณฑิต", b!"b_an0@3,d_it1@6"),
  (u!"บัณฑิตย์", b!"b_an0@3,d_it1@8"),
  (u!"บัณฑุ", b!"b_an0@3,d_u_1@5"),
  (u!"บัณเฑาะก์", b!"b_an0@3,d_c_1@9"),
  (u!"บัณเฑาะว์", b!"b_an0@3,d_c_1@9"),
  (u!"บำราบ", b!"b_am0@2,r_Ap1@5"),
  (u!"บุณฑริก", b!"b_un0@3,d_a_1@4,r_ik3@7"),
  (u!"บุรุษ", b!"b_u_1@2,r_ut1@5"),
  (u!"ประมาท", b!"pra_1@3,m_At1@6"),
  (u!"ประวัติ", b!"pra_1@3,w_at1@7"),
  (u!"ประโยค", b!"pra_1@3,y_Ok1@6"),
  (u!"ประโยชน์", b!"pra_1@3,y_Ot1@8"),
  (u!"ปรารถนา", b!"prAt1@4,T_a_1@-407,n_A_4@7"),
  (u!"ปุณฑริก", b!"p_un0@3,d_a_1@4,r_ik3@7"),
  (u!"พรหม", b!"Prom0@4"),
  (u!"พราหมณ์", b!"PrAm0@7"),
  (u!"พุทรา", b!"P_ut3@2,s_A_0@5"),
  (u!"ภูมิ", b!"P_Um0@4;P_U_0@2,m_i_3@4"),
  (u!"มณฑป", b!"m_on0@2,d_op1@4"),
  (u!"มรฑป", b!"m_C_0@1,r_a_3@2,d_op1@4"),
  (u!"มัณฑะเลย์", b!"m_an0@3,d_a_1@5,l_E_0@9"),
  (u!"มัทรี", b!"m_at3@2,s_I_0@5"),
  (u!"รามเกียรติ์", b!"r_Am0@2,m_a_3@3,k_Yn0@11"),
  (u!"ร้องไห้", b!"r_Cg3@4,h_Ay2@7"),
  (u!"ฤกษ์", b!"r_Wk2@4"),
  (u!"ศิริ", b!"s_i_1@2,r_i_1@4"),
  (u!"สรเพชญ", b!"sra_1@2,P_et3@6"),
  (u!"สามารถ", b!"s_A_4@2,m_At2@6"),
  (u!"สำรวจ", b!"s_am4@2,r_Tt1@5"),
  (u!"สำเร็จ", b!"s_am4@2,r_et1@6"),
  (u!"สิริ", b!"s_i_1@2,r_i_1@4"),
  (u!"สิริกิติ์", b!"s_i_1@2,r_i_1@4,k_it1@9"),
  (u!"สิเน่หา", b!"s_i_1@2,n_E_1@5,h_A_4@7"),
  (u!"สุรเกียรติ์", b!"s_u_1@2,r_a_3@3,k_Yt1@11"),
  (u!"อดิเรก", b!"?_a_1@1,d_i_1@3,r_Ek1@6"),
  (u!"อยาก", b!"y_Ak1@4"),
  (u!"อยู่", b!"y_U_1@4"),
  (u!"อย่า", b!"y_A_1@4"),
  (u!"อย่าง", b!"y_Ag1@5"),
  (u!"อำมาตย์", b!"?_am0@2,m_At1@7"),
  (u!"อินทรี", b!"?_in0@3,s_I_0@6"),
  (u!"อินทรีย์", b!"?_in0@3,s_I_0@8"),
  (u!"เกล้า", b!"klAw2@5"),
  (u!"เกียรติ", b!"k_Yt1@7"),
  (u!"เก้า", b!"k_Aw2@4"),
  (u!"เจ้า", b!"j_Aw2@4"),
  (u!"เชาวน์", b!"J_aw0@6"),
  (u!"เช้า", b!"J_Aw3@4"),
  (u!"เทริด", b!"s_Wt2@5"),
  (u!"เทอญ", b!"T_Wn0@4"),
  (u!"เทอม", b!"T_Wm0@4"),
  (u!"เท้า", b!"T_Aw3@4"),
  (u!"เปล่า", b!"plAw1@5"),
  (u!"เพชฉลู", b!"P_et3@3,J_a_1@-306,l_U_4@6"),
  (u!"เพชฌฆาต", b!"P_et3@3,J_a_3@4,c_At2@7"),
  (u!"เพชญ", b!"P_et3@4"),
  (u!"เพชญ์", b!"P_et3@5"),
  (u!"เพชร", b!"P_et3@4;P_et3@2,J_a_3@4"),
  (u!"เพชรา", b!"P_et3@2,J_a_3@3,r_A_0@5"),
  (u!"เพ็ชญ", b!"P_et3@5"),
  (u!"เลฑฑุ", b!"l_Et2@3,d_u_1@5"),
  (u!"เลณฑุ", b!"l_En0@3,d_u_1@5"),
  (u!"แทรก", b!"s_Xk2@4"),
  (u!"โทรม", b!"s_Om0@4"),
  (u!"ใช้", b!"J_Ay3@3"),
  (u!"ใต้", b!"t_Ay2@3"),
  (u!"ได้", b!"d_Ay2@3"),
  (u!"ไทร", b!"s_ay0@3"),
  (u!"ไทรอยด์", b!"T_ay0@2,r_Cy0@7"),
  (u!"ไม้", b!"m_Ay3@3")]

end Thpronun.Shipped

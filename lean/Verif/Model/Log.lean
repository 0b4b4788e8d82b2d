import Verif.Model.Basic
import Verif.Model.FpSupport
import Verif.Model.Dyadic

/-!
# log, log2, log10 and log1p: `math/expo/log.hpp`, `log2.hpp`, `log10.hpp`, `log1p.hpp`, `math/expo/impl/log*_impl.hpp` and their tables

`md` is the rounding mode of the arithmetic. `ccm::double_t` is `double` (`FLT_EVAL_METHOD` 0) and no product and sum are contracted. `std::uint64_t` and
`std::uint32_t` values are natural numbers with the wrap-around written out. Nothing in these functions is undefined: every index into a table is a remainder.
Setting of `errno` and of exception flags is not modelled. The compilers with their own zero for the argument 1 (Apple clang, MSVC) are not modelled.
-/

namespace Verif.CC
open Fmt

/-- `log_data.hpp` l.99-164 `log_data<double>::tab`, first components -/
def logInvc : List ℕ := [
  0x3FF734F0C3E0DE9F, 0x3FF713786A2CE91F, 0x3FF6F26008FAB5A0, 0x3FF6D1A61F138C7D, 0x3FF6B1490BC5B4D1, 0x3FF69147332F0CBA, 0x3FF6719F18224223, 0x3FF6524F99A51ED9,
  0x3FF63356AA8F24C4, 0x3FF614B36B9DDC14, 0x3FF5F66452C65C4C, 0x3FF5D867B5912C4F, 0x3FF5BABCCB5B90DE, 0x3FF59D61F2D91A78, 0x3FF5805612465687, 0x3FF56397CEE76BD3,
  0x3FF54725E2A77F93, 0x3FF52AFF42064583, 0x3FF50F22DBB2BDDF, 0x3FF4F38F4734DED7, 0x3FF4D843CFDE2840, 0x3FF4BD3EC078A3C8, 0x3FF4A27FC3E0258A, 0x3FF4880524D48434,
  0x3FF46DCE1B192D0B, 0x3FF453D9D3391854, 0x3FF43A2744B4845A, 0x3FF420B54115F8FB, 0x3FF40782DA3EF4B1, 0x3FF3EE8F5D57FE8F, 0x3FF3D5D9A00B4CE9, 0x3FF3BD60C010C12B,
  0x3FF3A5242B75DAB8, 0x3FF38D22CD9FD002, 0x3FF3755BC5847A1C, 0x3FF35DCE49AD36E2, 0x3FF34679984DD440, 0x3FF32F5CCEFFCB24, 0x3FF3187775A10D49, 0x3FF301C8373E3990,
  0x3FF2EB4EBB95F841, 0x3FF2D50A0219A9D1, 0x3FF2BEF9A8B7FD2A, 0x3FF2A91C7A0C1BAB, 0x3FF293726014B530, 0x3FF27DFA5757A1F5, 0x3FF268B39B1D3BBF, 0x3FF2539D838FF5BD,
  0x3FF23EB7AAC9083B, 0x3FF22A012BA940B6, 0x3FF2157996CC4132, 0x3FF201201DD2FC9B, 0x3FF1ECF4494D480B, 0x3FF1D8F5528F6569, 0x3FF1C52311577E7C, 0x3FF1B17C74CB26E9,
  0x3FF19E010C2C1AB6, 0x3FF18AB07BB670BD, 0x3FF1778A25EFBCB6, 0x3FF1648D354C31DA, 0x3FF151B990275FDD, 0x3FF13F0EA432D24C, 0x3FF12C8B7210F9DA, 0x3FF11A3028ECB531,
  0x3FF107FBDA8434AF, 0x3FF0F5EE0F4E6BB3, 0x3FF0E4065D2A9FCE, 0x3FF0D244632CA521, 0x3FF0C0A77CE2981A, 0x3FF0AF2F83C636D1, 0x3FF09DDB98A01339, 0x3FF08CABAF52E7DF,
  0x3FF07B9F2F4E28FB, 0x3FF06AB58C358F19, 0x3FF059EEA5ECF92C, 0x3FF04949CDD12C90, 0x3FF038C6C6F0ADA9, 0x3FF02865137932A9, 0x3FF0182427EA7348, 0x3FF008040614B195,
  0x3FEFE01FF726FA1A, 0x3FEFA11CC261EA74, 0x3FEF6310B081992E, 0x3FEF25F63CEEADCD, 0x3FEEE9C8039113E7, 0x3FEEAE8078CBB1AB, 0x3FEE741AA29D0C9B, 0x3FEE3A91830A99B5,
  0x3FEE01E009609A56, 0x3FEDCA01E577BB98, 0x3FED92F20B7C9103, 0x3FED5CAC66FB5CCE, 0x3FED272CAA5EDE9D, 0x3FECF26E3E6B2CCD, 0x3FECBE6DA2A77902, 0x3FEC8B266D37086D,
  0x3FEC5894BD5D5804, 0x3FEC26B533BB9F8C, 0x3FEBF583EEECE73F, 0x3FEBC4FD75DB96C1, 0x3FEB951E0C864A28, 0x3FEB65E2C5EF3E2C, 0x3FEB374867C9888B, 0x3FEB094B211D304A,
  0x3FEADBE885F2EF7E, 0x3FEAAF1D31603DA2, 0x3FEA82E63FD358A7, 0x3FEA5740EF09738B, 0x3FEA2C2A90AB4B27, 0x3FEA01A01393F2D1, 0x3FE9D79F24DB3C1B, 0x3FE9AE2505C7B190,
  0x3FE9852EF297CE2F, 0x3FE95CBAEEA44B75, 0x3FE934C69DE74838, 0x3FE90D4F2F6752E6, 0x3FE8E6528EFFD79D, 0x3FE8BFCE9FCC007C, 0x3FE899C0DABEC30E, 0x3FE87427AA2317FB,
  0x3FE84F00ACB39A08, 0x3FE82A49E8653E55, 0x3FE8060195F40260, 0x3FE7E22563E0A329, 0x3FE7BEB377DCB5AD, 0x3FE79BAA679725C2, 0x3FE77907F2170657, 0x3FE756CADBD6130C]

/-- `log_data.hpp` l.99-164 `log_data<double>::tab`, second components -/
def logLogc : List ℕ := [
  0xBFD7CC7F79E69000, 0xBFD76FEEC20D0000, 0xBFD713E31351E000, 0xBFD6B85B38287800, 0xBFD65D5590807800, 0xBFD602D076180000, 0xBFD5A8CA86909000, 0xBFD54F4356035000,
  0xBFD4F637C36B4000, 0xBFD49DA7FDA85000, 0xBFD445923989A800, 0xBFD3EDF439B0B800, 0xBFD396CE448F7000, 0xBFD3401E17BDA000, 0xBFD2E9E2EF468000, 0xBFD2941B3830E000,
  0xBFD23EC58CDA8800, 0xBFD1E9E129279000, 0xBFD1956D2B48F800, 0xBFD141679AB9F800, 0xBFD0EDD094EF9800, 0xBFD09AA518DB1000, 0xBFD047E65263B800, 0xBFCFEB224586F000,
  0xBFCF474A7517B000, 0xBFCEA4443D103000, 0xBFCE020D44E9B000, 0xBFCD60A22977F000, 0xBFCCC00104959000, 0xBFCC202956891000, 0xBFCB81178D811000, 0xBFCAE2C9CCD3D000,
  0xBFCA45402E129000, 0xBFC9A877681DF000, 0xBFC90C6D69483000, 0xBFC87120A645C000, 0xBFC7D68FB4143000, 0xBFC73CB83C627000, 0xBFC6A39A9B376000, 0xBFC60B3154B7A000,
  0xBFC5737D76243000, 0xBFC4DC7B8FC23000, 0xBFC4462C51D20000, 0xBFC3B08ABC830000, 0xBFC31B996B490000, 0xBFC2875490A44000, 0xBFC1F3B9F879A000, 0xBFC160C8252CA000,
  0xBFC0CE7F57F72000, 0xBFC03CDC49FEA000, 0xBFBF57BDBC4B8000, 0xBFBE370896404000, 0xBFBD17983EF94000, 0xBFBBF9674ED8A000, 0xBFBADC79202F6000, 0xBFB9C0C3E7288000,
  0xBFB8A646B372C000, 0xBFB78D01B3AC0000, 0xBFB674F145380000, 0xBFB55E0E6D878000, 0xBFB4485CDEA1E000, 0xBFB333D94D6AA000, 0xBFB22079F8C56000, 0xBFB10E4698622000,
  0xBFAFFA6C6AD20000, 0xBFADDA8D4A774000, 0xBFABBCECE4850000, 0xBFA9A1894012C000, 0xBFA788583302C000, 0xBFA5715E67D68000, 0xBFA35C8A49658000, 0xBFA149E364154000,
  0xBF9E72C082EB8000, 0xBF9A55F152528000, 0xBF963D62CF818000, 0xBF9228FB8CAA0000, 0xBF8C317B20F90000, 0xBF8419355DAA0000, 0xBF781203C2EC0000, 0xBF60040979240000,
  0x3F6FEFF384900000, 0x3F87DC41353D0000, 0x3F93CEA3C4C28000, 0x3F9B9FC114890000, 0x3FA1B0D8CE110000, 0x3FA58A5BD001C000, 0x3FA95C8340D88000, 0x3FAD276AEF578000,
  0x3FB07598E598C000, 0x3FB253F5E30D2000, 0x3FB42EDD8B380000, 0x3FB606598757C000, 0x3FB7DA76356A0000, 0x3FB9AB434E1C6000, 0x3FBB78C7BB0D6000, 0x3FBD431332E72000,
  0x3FBF0A3171DE6000, 0x3FC067152B914000, 0x3FC147858292B000, 0x3FC2266ECDCA3000, 0x3FC303D7A6C55000, 0x3FC3DFC33C331000, 0x3FC4BA366B7A8000, 0x3FC5933928D1F000,
  0x3FC66ACD2418F000, 0x3FC740F8EC669000, 0x3FC815C0F51AF000, 0x3FC8E92954F68000, 0x3FC9BB3602F84000, 0x3FCA8BED1C2C0000, 0x3FCB5B515C01D000, 0x3FCC2967CCBCC000,
  0x3FCCF635D5486000, 0x3FCDC1BD3446C000, 0x3FCE8C01B8CFE000, 0x3FCF5509C0179000, 0x3FD00E6C121FB800, 0x3FD071B80E93D000, 0x3FD0D46B9E867000, 0x3FD13687334BD000,
  0x3FD1980D67234800, 0x3FD1F8FFE0CC8000, 0x3FD2595FD7636800, 0x3FD2B9300914A800, 0x3FD3187210436000, 0x3FD377266DEC1800, 0x3FD3D54FFBAF3000, 0x3FD432EEE32FE000]

/-- `log_data.hpp` l.172-237 `log_data<double>::tab2`, first components -/
def logChi : List ℕ := [
  0x3FE61000014FB66B, 0x3FE63000034DB495, 0x3FE650000D94D478, 0x3FE67000074E6FAD, 0x3FE68FFFFEDF0FAE, 0x3FE6B0000763C5BC, 0x3FE6D0001E5CC1F6, 0x3FE6EFFFEB05F63E,
  0x3FE710000E869780, 0x3FE72FFFFC67E912, 0x3FE74FFFDF81116A, 0x3FE770000F679C90, 0x3FE78FFFFA7EC835, 0x3FE7AFFFFE20C2E6, 0x3FE7CFFFED3FC900, 0x3FE7EFFFE9261A76,
  0x3FE81000049CA3E8, 0x3FE8300017932C8F, 0x3FE850000633739C, 0x3FE87000204289C6, 0x3FE88FFFEBF57904, 0x3FE8B00022BC04DF, 0x3FE8CFFFE50C1B8A, 0x3FE8EFFFFC918E43,
  0x3FE910001EFA5FC7, 0x3FE9300013467BB9, 0x3FE94FFFE6EE076F, 0x3FE96FFFDE3C12D1, 0x3FE98FFFF4458A0D, 0x3FE9AFFFDD982E3E, 0x3FE9CFFFED49FB66, 0x3FE9F00020F19C51,
  0x3FEA10001145B006, 0x3FEA300007BBF6FA, 0x3FEA500010971D79, 0x3FEA70001DF52E48, 0x3FEA90001C593352, 0x3FEAB0002A4F3E4B, 0x3FEACFFFD7AE1ED1, 0x3FEAEFFFEE510478,
  0x3FEB0FFFDB650D5B, 0x3FEB2FFFFEAACA57, 0x3FEB4FFFD995BADC, 0x3FEB7000249E659C, 0x3FEB8FFFF9871640, 0x3FEBAFFFD204CB4F, 0x3FEBCFFFD2415C45, 0x3FEBEFFFF86309DF,
  0x3FEC0FFFE1B57653, 0x3FEC2FFFF1FA57E3, 0x3FEC4FFFDCBFE424, 0x3FEC6FFFED54B9F7, 0x3FEC8FFFEB998FD5, 0x3FECB0002125219A, 0x3FECCFFFDD94469C, 0x3FECEFFFEAFDC476,
  0x3FED1000169AF82B, 0x3FED30000D0FF71D, 0x3FED4FFFEA790FC4, 0x3FED70002EDC87E5, 0x3FED900021DC82AA, 0x3FEDAFFFD86B0283, 0x3FEDD000296C4739, 0x3FEDEFFFE54490F5,
  0x3FEE0FFFCDABF694, 0x3FEE2FFFDB52C8DD, 0x3FEE4FFFF24216EF, 0x3FEE6FFFE88A5E11, 0x3FEE9000119EFF0D, 0x3FEEAFFFDFA51744, 0x3FEED0001A127FA1, 0x3FEEF00007BABCC4,
  0x3FEF0FFFF57A8D02, 0x3FEF30001EE58AC7, 0x3FEF4FFFF5823494, 0x3FEF6FFFFCA94C6B, 0x3FEF8FFFE1F9C441, 0x3FEFAFFFD2E0E37E, 0x3FEFD0001C77E49E, 0x3FEFEFFFF7E0C331,
  0x3FF00FFFF465606E, 0x3FF02FFFF3867A58, 0x3FF04FFFFDFC0D17, 0x3FF0700003CD4D82, 0x3FF08FFFF9F2CBE8, 0x3FF0B000010CDA65, 0x3FF0D00001A4D338, 0x3FF0EFFFFADAFDFD,
  0x3FF110000BBAFD96, 0x3FF12FFFFAE5F45D, 0x3FF150000DD59AD9, 0x3FF170000F21559A, 0x3FF18FFFFC275426, 0x3FF1B000123D3C59, 0x3FF1CFFFF8299EB7, 0x3FF1EFFFF48AD400,
  0x3FF210000C8B86A4, 0x3FF2300003854303, 0x3FF24FFFFFBCF684, 0x3FF26FFFF52921D9, 0x3FF2900014933A3C, 0x3FF2B00014556313, 0x3FF2CFFFEBFE523B, 0x3FF2F0000BB8AD96,
  0x3FF30FFFFB7AE2AF, 0x3FF32FFFFEAC5F7F, 0x3FF350000CA66756, 0x3FF3700011FBF721, 0x3FF38FFFF9592FB9, 0x3FF3B00004DDD242, 0x3FF3CFFFF5B2C957, 0x3FF3EFFFEAB0B418,
  0x3FF410001532AFF4, 0x3FF4300017478B29, 0x3FF44FFFE795B463, 0x3FF46FFFE80475E0, 0x3FF48FFFEF6FC1E7, 0x3FF4AFFFE5BEA704, 0x3FF4D000171027DE, 0x3FF4F0000FF03EE2,
  0x3FF5100012DC4BD1, 0x3FF530001605277A, 0x3FF54FFFECDB704C, 0x3FF56FFFEF5F54A9, 0x3FF5900017E61012, 0x3FF5B00003C93E92, 0x3FF5D0001D4919BC, 0x3FF5EFFFE7B87A89]

/-- `log_data.hpp` l.172-237 `log_data<double>::tab2`, second components -/
def logClo : List ℕ := [
  0x3C7E026C91425B3C, 0x3C8DBFEA48005D41, 0x3C8E7FA786D6A5B7, 0x3C61FCEA6B54254C, 0xBC7C7E274C590EFD, 0xBC8AC16848DCDA01, 0x3C833F1C9D499311, 0xBC7E80041AE22D53,
  0x3C7BFF6671097952, 0x3C8C00E226BD8724, 0xBC6E02916EF101D2, 0xBC67FC71CD549C74, 0x3C81BEC19EF50483, 0xBC707E1729CC6465, 0xBC808072087B8B1C, 0x3C8DC0286D9DF9AE,
  0x3C897FD251E54C33, 0xBC8AFEE9B630F381, 0x3C89BFBF6B6535BC, 0xBC8BBF65F3117B75, 0xBC89006EA23DCB57, 0xBC7D00DF38E04B0A, 0xBC88007146FF9F05, 0x3C83817BD07A7038,
  0x3C893E9176DFB403, 0x3C7F804E4B980276, 0xBC8F7EF0D9FF622E, 0xBC7082AA962638BA, 0xBC87801B9164A8EF, 0xBC8740E08A5A9337, 0x3C3FCE08C19BE000, 0xBC8A3FAA27885B0A,
  0x3C74FF489958DA56, 0x3C8CBEAB8A2B6D18, 0x3C88FECADD787930, 0xBC8F41763DD8ABDB, 0xBC8EBF0284C27612, 0xBC69FD043CFF3F5F, 0xBC823EE7129070B4, 0x3C6A063EE00EDEA3,
  0x3C5A06C8381F0AB9, 0xBC79011E74233C1D, 0xBC79FF1068862A9F, 0x3C8AFF45D0864F3E, 0x3C7CFE7796C2C3F9, 0xBC63FF27EEF22BC4, 0xBC6CFFB7EE3BEA21, 0xBC814103972E0B5C,
  0x3C8BC16494B76A19, 0xBC64FEEF8D30C6ED, 0xBC843F68BCEC4775, 0x3C847EA3F053E0EC, 0x3C7383068DF992F1, 0xBC68FD8E64180E04, 0x3C8E7EBE1CC7EA72, 0x3C8EBE39AD9F88FE,
  0x3C757D91A8B95A71, 0x3C89C1906970C7DA, 0xBC580E37C558FE0C, 0xBC7F80D64DC10F44, 0xBC747C8F94FD5C5C, 0x3C8C7F1DC521617E, 0x3C88019EB2FFB153, 0x3C6E00D2C652CC89,
  0xBC7F8340202D69D2, 0x3C7B00C1CA1B0864, 0x3C72FFA8B094AB51, 0xBC57F673B1EFBE59, 0xBC84808D5E0BC801, 0x3C780006D54320B5, 0xBC5002F860565C92, 0xBC8540445D35E611,
  0xBC4FFB3139EF9105, 0x3C8A81ACF2731155, 0x3C8A3F41D4D7C743, 0xBC6202F41C987875, 0x3C777DD1F477E74B, 0xBC6F01199A7CA331, 0x3C7181EE4BCEACB1, 0xBC6E05370170875A,
  0xBC8A7EAD491C0ADA, 0xBC977F69C3FCB2E0, 0x3C97BFFE34CB945B, 0x3C820083C0E456CB, 0xBC6DFFDFBE37751A, 0xBC913F7FAEE626EB, 0x3C807DFA79489FF7, 0xBC77040570D66BC0,
  0x3C8E80D4846D0B62, 0x3C9DBFFA64FD36EF, 0x3C9A0077701250AE, 0x3C8DFDF9E2E3DEEE, 0x3C910030DC3B7273, 0x3C997F7980030188, 0xBC65F932AB9F8C67, 0x3C937FBF9DA75BEB,
  0x3C9F806B91FD5B22, 0x3C93FFC2EB9FBF33, 0x3C7601E77E2E2E72, 0x3C7FFCBB767F0C61, 0xBC7202CA3C02412B, 0xBC92808233F21F02, 0xBC88FF7E384FDCF2, 0xBC85FF51503041C5,
  0xBC810071885E289D, 0xBC91FF5D3FB7B715, 0x3C957F82228B82BD, 0x3C8000BAC40DD5CC, 0xBC943F9D2DB2A751, 0x3C857F6B707638E1, 0x3C7A023A10BF1231, 0x3C987F6D66B152B0,
  0x3C67F8375F198524, 0x3C8301E672DC5143, 0x3C89FF69B8B2895A, 0xBC95C0B19BC2F254, 0x3C9B4009F23A2A72, 0xBC94FFB7BF0D7D45, 0xBC99C06471DC6A3D, 0x3C977F890B85531C,
  0x3C6004657166A436, 0xBC96BFCECE233209, 0xBC8902720505A1D7, 0x3C9BBFE60EC96412, 0x3C887EC581AFEF90, 0xBC9F41080ABF0CC0, 0xBC98812AFB254729, 0xBC947EB780ED6904]

/-- `log_data.hpp` l.40-49 `log_data<float>::tab`, first components -/
def logInvcf : List ℕ := [
  0x3FF661EC79F8F3BE, 0x3FF571ED4AAF883D, 0x3FF49539F0F010B0, 0x3FF3C995B0B80385, 0x3FF30D190C8864A5, 0x3FF25E227B0B8EA0, 0x3FF1BB4A4A1A343F, 0x3FF12358F08AE5BA,
  0x3FF0953F419900A7, 0x3FF0000000000000, 0x3FEE608CFD9A47AC, 0x3FECA4B31F026AA0, 0x3FEB2036576AFCE6, 0x3FE9C2D163A1AA2D, 0x3FE886E6037841ED, 0x3FE767DCF5534862]

/-- `log_data.hpp` l.40-49 `log_data<float>::tab`, second components -/
def logLogcf : List ℕ := [
  0xBFD57BF7808CAADE, 0xBFD2BEF0A7C06DDB, 0xBFD01EAE7F513A67, 0xBFCB31D8A68224E9, 0xBFC6574F0AC07758, 0xBFC1AA2BC79C8100, 0xBFBA4E76CE8C0E5E, 0xBFB1973C5A611CCC,
  0xBFA252F438E10C1E, 0x0000000000000000, 0x3FAAA5AA5DF25984, 0x3FBC5E53AA362EB4, 0x3FC526E57720DB08, 0x3FCBC2860D224770, 0x3FD1058BC8A07EE1, 0x3FD4043057B6EE09]

/-- `log2_data.hpp` l.88-121 `log2_data<double>::tab`, first components -/
def log2Invc : List ℕ := [
  0x3FF724286BB1ACF8, 0x3FF6E1F766D2CCA1, 0x3FF6A13D0E30D48A, 0x3FF661EC32D06C85, 0x3FF623FA951198F8, 0x3FF5E75BA4CF026C, 0x3FF5AC055A214FB8, 0x3FF571ED0F166E1E,
  0x3FF53909590BF835, 0x3FF5014FED61ADDD, 0x3FF4CAB88E487BD0, 0x3FF49539B4334FEE, 0x3FF460CBDFAFD569, 0x3FF42D664EE4B953, 0x3FF3FB01111DD8A6, 0x3FF3C995B70C5836,
  0x3FF3991C4AB6FD4A, 0x3FF3698E0CE099B5, 0x3FF33AE48213E7B2, 0x3FF30D191985BDB1, 0x3FF2E025CAB271D7, 0x3FF2B404CF13CD82, 0x3FF288B02C7CCB50, 0x3FF25E2263944DE5,
  0x3FF234563D8615B1, 0x3FF20B46E33EAF38, 0x3FF1E2EEFDCDA3DD, 0x3FF1BB4A580B3930, 0x3FF19453847F2200, 0x3FF16E06C0D5D73C, 0x3FF1485F47B7E4C2, 0x3FF12358AD0085D1,
  0x3FF0FEF00F532227, 0x3FF0DB2077D03A8F, 0x3FF0B7E6D65980D9, 0x3FF0953EFE7B408D, 0x3FF07325CAC53B83, 0x3FF05197E40D1B5C, 0x3FF03091C1208EA2, 0x3FF0101025B37E21,
  0x3FEFC07EF9CAA76B, 0x3FEF4465D3F6F184, 0x3FEECC079F84107F, 0x3FEE573A99975AE8, 0x3FEDE5D6F0BD3DE6, 0x3FED77B681FF38B3, 0x3FED0CB5724DE943, 0x3FECA4B2DC0E7563,
  0x3FEC3F8EE8D6CB51, 0x3FEBDD2B4F020C4C, 0x3FEB7D6C006015CA, 0x3FEB20366E2E338F, 0x3FEAC57026295039, 0x3FEA6D01BC2731DD, 0x3FEA16D3BC3FF18B, 0x3FE9C2D14967FEAD,
  0x3FE970E4F47C9902, 0x3FE920FB3982BCF2, 0x3FE8D30187F759F1, 0x3FE886E5EBB9F66D, 0x3FE83C97B658B994, 0x3FE7F405FFC61022, 0x3FE7AD22181415CA, 0x3FE767DCF99EFF8C]

/-- `log2_data.hpp` l.88-121 `log2_data<double>::tab`, second components -/
def log2Logc : List ℕ := [
  0xBFE1095FEECDB000, 0xBFE08494BD76D000, 0xBFE00143AEE8F800, 0xBFDEFEC5360B4000, 0xBFDDFDD91AB7E000, 0xBFDCFFAE0CC79000, 0xBFDC043811FDA000, 0xBFDB0B67323AE000,
  0xBFDA152F5A2DB000, 0xBFD9217F5AF86000, 0xBFD8304DB0719000, 0xBFD74189F9A9E000, 0xBFD6552BB5199000, 0xBFD56B23A29B1000, 0xBFD483650F5FA000, 0xBFD39DE937F6A000,
  0xBFD2BAA1538D6000, 0xBFD1D98340CA4000, 0xBFD0FA853A40E000, 0xBFD01D9C32E73000, 0xBFCE857DA2FA6000, 0xBFCCD3C8633D8000, 0xBFCB26034C14A000, 0xBFC97C1C2F4FE000,
  0xBFC7D6023F800000, 0xBFC633A71A05E000, 0xBFC494F5E9570000, 0xBFC2F9E424E0A000, 0xBFC162595AFDC000, 0xBFBF9C9A75BD8000, 0xBFBC7B575BF9C000, 0xBFB960C60FF48000,
  0xBFB64CE247B60000, 0xBFB33F78B2014000, 0xBFB0387D1A42C000, 0xBFAA6F9208B50000, 0xBFA47A954F770000, 0xBF9D23A8C50C0000, 0xBF916A2629780000, 0xBF7720F8D8E80000,
  0x3F86FE53B1500000, 0x3FA11CCCE10F8000, 0x3FAC4DFC8C8B8000, 0x3FB3AA321E574000, 0x3FB918A0D08B8000, 0x3FBE72E9DA044000, 0x3FC1DCD2507F6000, 0x3FC476AB03DEA000,
  0x3FC7074377E22000, 0x3FC98EDE8BA94000, 0x3FCC0DB86AD2E000, 0x3FCE840AAFCEE000, 0x3FD0790AB4678000, 0x3FD1AC056801C000, 0x3FD2DB11D4FEE000, 0x3FD406464EC58000,
  0x3FD52DBE093AF000, 0x3FD651902050D000, 0x3FD771D2CDEAF000, 0x3FD88E9C857D9000, 0x3FD9A80155E16000, 0x3FDABE186ED3D000, 0x3FDBD0F2AEA0E000, 0x3FDCE0A43DBF4000]

/-- `log2_data.hpp` l.129-162 `log2_data<double>::tab2`, first components -/
def log2Chi : List ℕ := [
  0x3FE6200012B90A8E, 0x3FE66000045734A6, 0x3FE69FFFC325F2C5, 0x3FE6E00038B95A04, 0x3FE71FFFE09994E3, 0x3FE7600015590E10, 0x3FE7A00012655BD5, 0x3FE7E0003259E9A6,
  0x3FE81FFFEDB4B2D2, 0x3FE860002DFAFCC3, 0x3FE89FFFF78C6B50, 0x3FE8E00039671566, 0x3FE91FFFE2BF1745, 0x3FE95FFFCC5C9FD1, 0x3FE9A0003BBA4767, 0x3FE9DFFFE7B92DA5,
  0x3FEA1FFFD72EFDAF, 0x3FEA5FFFDE04FF95, 0x3FEA9FFFCA5E8D2B, 0x3FEADFFFDDAD03EA, 0x3FEB1FFFF10D3D4D, 0x3FEB5FFFCE21165A, 0x3FEB9FFFD950E674, 0x3FEBE000139CA8AF,
  0x3FEC20005B46DF99, 0x3FEC600040B9F7AE, 0x3FECA0006255FD8A, 0x3FECDFFFD94C095D, 0x3FED1FFFF975D6CF, 0x3FED5FFFA2561C93, 0x3FED9FFF9D228B0C, 0x3FEDE00065BC7E16,
  0x3FEE200002F64791, 0x3FEE600057D7A6D8, 0x3FEEA00027EDC00C, 0x3FEEE0006CF5CB7C, 0x3FEF2000782B7DCC, 0x3FEF6000260C450A, 0x3FEF9FFFE88CD533, 0x3FEFDFFFD50F8689,
  0x3FF0200004292367, 0x3FF05FFFE3E3D668, 0x3FF0A0000A85A757, 0x3FF0E0001A5F3FCC, 0x3FF11FFFF8AFBAF5, 0x3FF15FFFE54D91AD, 0x3FF1A00011AC36E1, 0x3FF1E00019C84248,
  0x3FF220000FFE5E6E, 0x3FF26000269FD891, 0x3FF2A00029A6E6DA, 0x3FF2DFFFE0293E39, 0x3FF31FFFF7DCF082, 0x3FF35FFFF05A8B60, 0x3FF3A0002E0EAECC, 0x3FF3E000043BB236,
  0x3FF4200002D187FF, 0x3FF460000D387CB1, 0x3FF4A00004569F89, 0x3FF4E000043543F3, 0x3FF51FFFCC027F0F, 0x3FF55FFFFD87B36F, 0x3FF59FFFF21DF7BA, 0x3FF5DFFFEBFC3481]

/-- `log2_data.hpp` l.129-162 `log2_data<double>::tab2`, second components -/
def log2Clo : List ℕ := [
  0x3C8904AB0644B605, 0x3C61FF9BEA62F7A9, 0x3C827ECFCB3C90BA, 0x3C88FF8856739326, 0x3C8AFD40275F82B1, 0xBC72FD75B4238341, 0x3C7808E67C242B76, 0xBC6208E426F622B7,
  0xBC8402461EA5C92F, 0x3C6DF7F4A2F29A1F, 0xBC8E0453094995FD, 0xBC8A04F3BEC77B45, 0xBC77FA34400E203C, 0xBC76FF8005A0695D, 0x3C70F8C4C4EC7E03, 0x3C8E7FD9478C4602,
  0xBC6A0C554DCDAE7E, 0x3C867DA98CE9B26B, 0xBC8284C9B54C13DE, 0x3C5812C8EA602E3C, 0xBC8EFADDAD27789C, 0x3C53CB1719C61237, 0x3C73F7D94194CE00, 0x3C750AC4215D9BC0,
  0x3C6BEEA653E9C1C9, 0xBC7C079F274A70D6, 0xBC7A0B4076E84C1F, 0x3C88F933F99AB5D7, 0xBC582C08665FE1BE, 0xBC7B04289BD295F3, 0x3C870251340FA236, 0xBC75011E16A4D80C,
  0x3C89802F09EF62E0, 0xBC7E0B75580CF7FA, 0xBC8C848309459811, 0xBC8F8027951576F4, 0xBC8F81D97274538F, 0xBC4071002727FFDC, 0xBC581BDCE1FDA8B0, 0x3C87F91ACB918E6E,
  0x3C9B7FF365324681, 0x3C86FA08DDAE957B, 0xBC57E2DE80D3FB91, 0xBC91823305C5F014, 0xBC8BFABB6680BAC2, 0xBC9D7F121737E7EF, 0x3C9C000A0516F5FF, 0xBC9082FBE4DA5DA0,
  0xBC88FDD04C9CFB43, 0x3C8CFE2A7994D182, 0xBC700273715E8BC5, 0x3C9B7C39DAB2A6F9, 0x3C7DF1336EDC5254, 0xBC9E03564CCD31EB, 0x3C75F0E74BD3A477, 0x3C9C7DCB149D8833,
  0x3C7E08AFCF2D3D28, 0x3C820837856599A6, 0xBC89FA5C904FBCD2, 0xBC781125ED175329, 0x3C9883D8847754DC, 0xBC8709E731D02807, 0x3C87F79F68727B02, 0xBC9180902E30E93E]

/-- `log2_data.hpp` l.41-50 `log2_data<float>::tab`, first components -/
def log2Invcf : List ℕ := [
  0x3FF661EC79F8F3BE, 0x3FF571ED4AAF883D, 0x3FF49539F0F010B0, 0x3FF3C995B0B80385, 0x3FF30D190C8864A5, 0x3FF25E227B0B8EA0, 0x3FF1BB4A4A1A343F, 0x3FF12358F08AE5BA,
  0x3FF0953F419900A7, 0x3FF0000000000000, 0x3FEE608CFD9A47AC, 0x3FECA4B31F026AA0, 0x3FEB2036576AFCE6, 0x3FE9C2D163A1AA2D, 0x3FE886E6037841ED, 0x3FE767DCF5534862]

/-- `log2_data.hpp` l.41-50 `log2_data<float>::tab`, second components -/
def log2Logcf : List ℕ := [
  0xBFDEFEC65B963019, 0xBFDB0B6832D4FCA4, 0xBFD7418B0A1FB77B, 0xBFD39DE91A6DCF7B, 0xBFD01D9BF3F2B631, 0xBFC97C1D1B3B7AF0, 0xBFC2F9E393AF3C9F, 0xBFB960CBBF788D5C,
  0xBFAA6F9DB6475FCE, 0x0000000000000000, 0x3FB338CA9F24F53D, 0x3FC476A9543891BA, 0x3FCE840B4AC4E4D2, 0x3FD40645F0C6651C, 0x3FD88E9C2C1B9FF8, 0x3FDCE0A44EB17BCC]

/-- `log_data.hpp` l.79-91 `poly1[0]` = -0x1p-1 -/
def logP0 : ℕ := 0xBFE0000000000000
/-- `log_data.hpp` l.79-91 `poly1[1]` = 0x1.5555555555577p-2 -/
def logP1 : ℕ := 0x3FD5555555555577
/-- `log_data.hpp` l.79-91 `poly1[2]` = -0x1.ffffffffffdcbp-3 -/
def logP2 : ℕ := 0xBFCFFFFFFFFFFDCB
/-- `log_data.hpp` l.79-91 `poly1[3]` = 0x1.999999995dd0cp-3 -/
def logP3 : ℕ := 0x3FC999999995DD0C
/-- `log_data.hpp` l.79-91 `poly1[4]` = -0x1.55555556745a7p-3 -/
def logP4 : ℕ := 0xBFC55555556745A7
/-- `log_data.hpp` l.79-91 `poly1[5]` = 0x1.24924a344de3p-3 -/
def logP5 : ℕ := 0x3FC24924A344DE30
/-- `log_data.hpp` l.79-91 `poly1[6]` = -0x1.fffffa4423d65p-4 -/
def logP6 : ℕ := 0xBFBFFFFFA4423D65
/-- `log_data.hpp` l.79-91 `poly1[7]` = 0x1.c7184282ad6cap-4 -/
def logP7 : ℕ := 0x3FBC7184282AD6CA
/-- `log_data.hpp` l.79-91 `poly1[8]` = -0x1.999eb43b068ffp-4 -/
def logP8 : ℕ := 0xBFB999EB43B068FF
/-- `log_data.hpp` l.79-91 `poly1[9]` = 0x1.78182f7afd085p-4 -/
def logP9 : ℕ := 0x3FB78182F7AFD085
/-- `log_data.hpp` l.79-91 `poly1[10]` = -0x1.5521375d145cdp-4 -/
def logP10 : ℕ := 0xBFB5521375D145CD
/-- `log_data.hpp` l.73-75 `poly[0]` = -0x1.0000000000001p-1 -/
def logA0 : ℕ := 0xBFE0000000000001
/-- `log_data.hpp` l.73-75 `poly[1]` = 0x1.555555551305bp-2 -/
def logA1 : ℕ := 0x3FD555555551305B
/-- `log_data.hpp` l.73-75 `poly[2]` = -0x1.fffffffeb459p-3 -/
def logA2 : ℕ := 0xBFCFFFFFFFEB4590
/-- `log_data.hpp` l.73-75 `poly[3]` = 0x1.999b324f10111p-3 -/
def logA3 : ℕ := 0x3FC999B324F10111
/-- `log_data.hpp` l.73-75 `poly[4]` = -0x1.55575e506c89fp-3 -/
def logA4 : ℕ := 0xBFC55575E506C89F
/-- `log_data.hpp` l.67 `ln2hi` -/
def logLn2hi : ℕ := 0x3FE62E42FEFA3800
/-- `log_data.hpp` l.68 `ln2lo` -/
def logLn2lo : ℕ := 0x3D2EF35793C76730
/-- `log_data.hpp` l.54-58 `poly[0]` = -0x1.00ea348b88334p-2 -/
def logAf0 : ℕ := 0xBFD00EA348B88334
/-- `log_data.hpp` l.54-58 `poly[1]` = 0x1.5575b0be00b6ap-2 -/
def logAf1 : ℕ := 0x3FD5575B0BE00B6A
/-- `log_data.hpp` l.54-58 `poly[2]` = -0x1.ffffef20a4123p-2 -/
def logAf2 : ℕ := 0xBFDFFFFEF20A4123
/-- `log_data.hpp` l.51 `ln2` -/
def logLn2f : ℕ := 0x3FE62E42FEFA39EF
/-- `log2_data.hpp` l.77-80 `poly1[0]` = -0x1.71547652b82fep-1 -/
def log2P0 : ℕ := 0xBFE71547652B82FE
/-- `log2_data.hpp` l.77-80 `poly1[1]` = 0x1.ec709dc3a03f7p-2 -/
def log2P1 : ℕ := 0x3FDEC709DC3A03F7
/-- `log2_data.hpp` l.77-80 `poly1[2]` = -0x1.71547652b7c3fp-2 -/
def log2P2 : ℕ := 0xBFD71547652B7C3F
/-- `log2_data.hpp` l.77-80 `poly1[3]` = 0x1.2776c50f05be4p-2 -/
def log2P3 : ℕ := 0x3FD2776C50F05BE4
/-- `log2_data.hpp` l.77-80 `poly1[4]` = -0x1.ec709dd768fe5p-3 -/
def log2P4 : ℕ := 0xBFCEC709DD768FE5
/-- `log2_data.hpp` l.77-80 `poly1[5]` = 0x1.a61761ec4e736p-3 -/
def log2P5 : ℕ := 0x3FCA61761EC4E736
/-- `log2_data.hpp` l.77-80 `poly1[6]` = -0x1.7153fbc64a79bp-3 -/
def log2P6 : ℕ := 0xBFC7153FBC64A79B
/-- `log2_data.hpp` l.77-80 `poly1[7]` = 0x1.484d154f01b4ap-3 -/
def log2P7 : ℕ := 0x3FC484D154F01B4A
/-- `log2_data.hpp` l.77-80 `poly1[8]` = -0x1.289e4a72c383cp-3 -/
def log2P8 : ℕ := 0xBFC289E4A72C383C
/-- `log2_data.hpp` l.77-80 `poly1[9]` = 0x1.0b32f285aee66p-3 -/
def log2P9 : ℕ := 0x3FC0B32F285AEE66
/-- `log2_data.hpp` l.71-73 `poly[0]` = -0x1.71547652b8339p-1 -/
def log2A0 : ℕ := 0xBFE71547652B8339
/-- `log2_data.hpp` l.71-73 `poly[1]` = 0x1.ec709dc3a04bep-2 -/
def log2A1 : ℕ := 0x3FDEC709DC3A04BE
/-- `log2_data.hpp` l.71-73 `poly[2]` = -0x1.7154764702ffbp-2 -/
def log2A2 : ℕ := 0xBFD7154764702FFB
/-- `log2_data.hpp` l.71-73 `poly[3]` = 0x1.2776c50034c48p-2 -/
def log2A3 : ℕ := 0x3FD2776C50034C48
/-- `log2_data.hpp` l.71-73 `poly[4]` = -0x1.ec7b328ea92bcp-3 -/
def log2A4 : ℕ := 0xBFCEC7B328EA92BC
/-- `log2_data.hpp` l.71-73 `poly[5]` = 0x1.a6225e117f92ep-3 -/
def log2A5 : ℕ := 0x3FCA6225E117F92E
/-- `log2_data.hpp` l.65 `invln2hi` -/
def log2Inv_hi : ℕ := 0x3FF7154765200000
/-- `log2_data.hpp` l.66 `invln2lo` -/
def log2Inv_lo : ℕ := 0x3DE705FC2EEFA200
/-- `log2_data.hpp` l.52-58 `poly[0]` = -0x1.712b6f70a7e4dp-2 -/
def log2Af0 : ℕ := 0xBFD712B6F70A7E4D
/-- `log2_data.hpp` l.52-58 `poly[1]` = 0x1.ecabf496832ep-2 -/
def log2Af1 : ℕ := 0x3FDECABF496832E0
/-- `log2_data.hpp` l.52-58 `poly[2]` = -0x1.715479ffae3dep-1 -/
def log2Af2 : ℕ := 0xBFE715479FFAE3DE
/-- `log2_data.hpp` l.52-58 `poly[3]` = 0x1.715475f35c8b8p0 -/
def log2Af3 : ℕ := 0x3FF715475F35C8B8

/-- `static_cast<std::int64_t>(tmp) >> 52` for a `std::uint64_t` (arithmetic shift) -/
def sar52 (t : ℕ) : ℤ := if t < 2 ^ 63 then (t >>> 52 : ℕ) else (t >>> 52 : ℕ) - 4096

/-- `static_cast<std::int32_t>(tmp) >> 23` for a `std::uint32_t` -/
def sar23 (t : ℕ) : ℤ := if t < 2 ^ 31 then (t >>> 23 : ℕ) else (t >>> 23 : ℕ) - 512

/-- log_double_impl.hpp l.76-81 and log2_double_impl.hpp l.77-83: a subnormal is scaled by `2^52` and its bit pattern moved back -/
def logNorm (md : Mode) (x : ℕ) : ℕ :=
  if ((x >>> 48) % 2 ^ 32 + 2 ^ 32 - 0x10) % 2 ^ 32 ≥ 0x7ff0 - 0x10 then (binary64.hmul md x 0x4330000000000000 + 2 ^ 64 - (52 <<< 52)) % 2 ^ 64 else x

/-- log_float_impl.hpp l.57-62 -/
def logNormf (md : Mode) (x : ℕ) : ℕ :=
  if (x + 2 ^ 32 - 0x00800000) % 2 ^ 32 ≥ 0x7f800000 - 0x00800000 then (binary32.hmul md x 0x4B000000 + 2 ^ 32 - (23 <<< 23)) % 2 ^ 32 else x

/-- log_double_impl.hpp l.53-72: the branch for arguments near 1 -/
def logNear (md : Mode) (x : ℕ) : ℕ :=
  let mul := binary64.hmul md
  let add := binary64.hadd md
  let sub := binary64.hsub md
  let r := sub x 0x3FF0000000000000
  let r2 := mul r r
  let r3 := mul r r2
  let y := mul r3 (add (add (add logP1 (mul r logP2)) (mul r2 logP3))
    (mul r3 (add (add (add logP4 (mul r logP5)) (mul r2 logP6))
      (mul r3 (add (add (add logP7 (mul r logP8)) (mul r2 logP9)) (mul r3 logP10))))))
  let w := mul r 0x41A0000000000000
  let rhi := sub (add r w) w
  let rlo := sub r rhi
  let w := mul (mul rhi rhi) logP0
  let hi := add r w
  let lo := add (sub r hi) w
  let lo := add lo (mul (mul logP0 rlo) (add rhi r))
  add (add y lo) hi

/-- log_double_impl.hpp l.89-118: table lookup and polynomial, from the (possibly moved) bit pattern `ix` -/
def logMain (md : Mode) (ix : ℕ) : ℕ :=
  let mul := binary64.hmul md
  let add := binary64.hadd md
  let sub := binary64.hsub md
  let tmp := (ix + 2 ^ 64 - 0x3fe6000000000000) % 2 ^ 64
  let i := (tmp >>> 45) % 128
  let k := sar52 tmp
  let iz := (ix + 2 ^ 64 - (tmp &&& (0xfff <<< 52))) % 2 ^ 64
  let invc := logInvc.getD i 0
  let logc := logLogc.getD i 0
  let r := mul (sub (sub iz (logChi.getD i 0)) (logClo.getD i 0)) invc
  let kd := binary64.ofInt md k
  let w := add (mul kd logLn2hi) logc
  let hi := add w r
  let lo := add (add (sub w hi) r) (mul kd logLn2lo)
  let r2 := mul r r
  add (add (add lo (mul r2 logA0)) (mul (mul r r2) (add (add logA1 (mul r logA2)) (mul r2 (add logA3 (mul r logA4)))))) hi

/-- log_double_impl.hpp l.35-119 `log_double_impl` -/
def logDoubleImpl (md : Mode) (x : ℕ) : ℕ :=
  if (x + 2 ^ 64 - 0x3FEE000000000000) % 2 ^ 64 < 0x3FF1000000000000 - 0x3FEE000000000000 then
    (if x = 0x3FF0000000000000 then 0 else logNear md x)
  else logMain md (logNorm md x)

/-- log_float_impl.hpp l.35-83 `log_float_impl` -/
def logFloatImpl (md : Mode) (x : ℕ) : ℕ :=
  let mul := binary64.hmul md
  let add := binary64.hadd md
  let sub := binary64.hsub md
  if x = 0x3f800000 then 0
  else
    let ix := logNormf md x
    let tmp := (ix + 2 ^ 32 - 0x3f330000) % 2 ^ 32
    let i := (tmp >>> 19) % 16
    let k := sar23 tmp
    let iz := (ix + 2 ^ 32 - (tmp &&& 0xff800000)) % 2 ^ 32
    let z := binary64.hcvt binary32 md iz
    let r := sub (mul z (logInvcf.getD i 0)) 0x3FF0000000000000
    let y0 := add (logLogcf.getD i 0) (mul (binary64.ofInt md k) logLn2f)
    let r2 := mul r r
    let y := add (mul logAf1 r) logAf2
    let y := add (mul logAf0 r2) y
    let y := add (mul y r2) (add y0 r)
    binary32.hcvt binary64 md y

/-- log2_double_impl.hpp l.55-74: the branch for arguments near 1 -/
def log2Near (md : Mode) (x : ℕ) : ℕ :=
  let mul := binary64.hmul md
  let add := binary64.hadd md
  let sub := binary64.hsub md
  let r := sub x 0x3FF0000000000000
  let rhi := r &&& (2 ^ 64 - 2 ^ 32)
  let rlo := sub r rhi
  let hi := mul rhi log2Inv_hi
  let lo := add (mul rlo log2Inv_hi) (mul r log2Inv_lo)
  let r2 := mul r r
  let r4 := mul r2 r2
  let p := mul r2 (add log2P0 (mul r log2P1))
  let y := add hi p
  let lo := add lo (add (sub hi y) p)
  let lo := add lo (mul r4 (add (add (add log2P2 (mul r log2P3)) (mul r2 (add log2P4 (mul r log2P5))))
    (mul r4 (add (add log2P6 (mul r log2P7)) (mul r2 (add log2P8 (mul r log2P9)))))))
  add y lo

/-- log2_double_impl.hpp l.88-125 -/
def log2Main (md : Mode) (ix : ℕ) : ℕ :=
  let mul := binary64.hmul md
  let add := binary64.hadd md
  let sub := binary64.hsub md
  let tmp := (ix + 2 ^ 64 - 0x3fe6000000000000) % 2 ^ 64
  let i := (tmp >>> 46) % 64
  let k := sar52 tmp
  let iz := (ix + 2 ^ 64 - (tmp &&& (0xfff <<< 52))) % 2 ^ 64
  let invc := log2Invc.getD i 0
  let logc := log2Logc.getD i 0
  let kd := binary64.ofInt md k
  let r := mul (sub (sub iz (log2Chi.getD i 0)) (log2Clo.getD i 0)) invc
  let rhi := r &&& (2 ^ 64 - 2 ^ 32)
  let rlo := sub r rhi
  let t1 := mul rhi log2Inv_hi
  let t2 := add (mul rlo log2Inv_hi) (mul r log2Inv_lo)
  let t3 := add kd logc
  let hi := add t3 t1
  let lo := add (add (sub t3 hi) t1) t2
  let r2 := mul r r
  let r4 := mul r2 r2
  let p := add (add (add log2A0 (mul r log2A1)) (mul r2 (add log2A2 (mul r log2A3)))) (mul r4 (add log2A4 (mul r log2A5)))
  add (add lo (mul r2 p)) hi

/-- log2_double_impl.hpp l.38-126 `log2_double_impl` -/
def log2DoubleImpl (md : Mode) (x : ℕ) : ℕ :=
  if (x + 2 ^ 64 - 0x3FEEA4AF00000000) % 2 ^ 64 < 0x3FF0B55900000000 - 0x3FEEA4AF00000000 then
    (if x = 0x3FF0000000000000 then 0 else log2Near md x)
  else log2Main md (logNorm md x)

/-- log2_float_impl.hpp l.53-79 -/
def log2Mainf (md : Mode) (ix : ℕ) : ℕ :=
  let mul := binary64.hmul md
  let add := binary64.hadd md
  let sub := binary64.hsub md
  let tmp := (ix + 2 ^ 32 - 0x3f330000) % 2 ^ 32
  let i := (tmp >>> 19) % 16
  let iz := (ix + 2 ^ 32 - (tmp &&& 0xff800000)) % 2 ^ 32
  let k := sar23 tmp
  let z := binary64.hcvt binary32 md iz
  let r := sub (mul z (log2Invcf.getD i 0)) 0x3FF0000000000000
  let y0 := add (log2Logcf.getD i 0) (binary64.ofInt md k)
  let r2 := mul r r
  let y := add (mul log2Af1 r) log2Af2
  let y := add (mul log2Af0 r2) y
  let p := add (mul log2Af3 r) y0
  let y := add (mul y r2) p
  binary32.hcvt binary64 md y

/-- log2_float_impl.hpp l.32-80 `log2_float_impl` -/
def log2FloatImpl (md : Mode) (x : ℕ) : ℕ :=
  if x = 0x3f800000 then 0
  else if (x + 2 ^ 32 - 0x00800000) % 2 ^ 32 ≥ 0x7f800000 - 0x00800000 then
    if x &&& 0x80000000 ≠ 0 ∨ (x * 2) % 2 ^ 32 ≥ 0xff000000 then binary32.hdiv md (binary32.hsub md x x) (binary32.hsub md x x)
    else log2Mainf md ((binary32.hmul md x 0x4B000000 + 2 ^ 32 - (23 <<< 23)) % 2 ^ 32)
  else log2Mainf md x

/-- log.hpp l.34-77 `ccm::log`, log10.hpp l.38-77 `ccm::log10`: the tests before the kernel `impl` -/
def logTests (f : Fmt) (impl : ℕ → ℕ) (x : ℕ) : ℕ :=
  if f.heq x (FPBits.one f false) then 0
  else if f.heq x 0 then f.inf true
  else if f.hlt x 0 then FPBits.quietNaN f true 0
  else if f.heq x (f.inf false) then f.inf false
  else if isnan f x then FPBits.quietNaN f false 0
  else impl x

/-- log2.hpp l.41-99 `ccm::log2`: the tests before the kernel -/
def log2Tests (f : Fmt) (impl : ℕ → ℕ) (x : ℕ) : ℕ :=
  if f.heq x 0 then f.inf true
  else if f.heq x (FPBits.one f false) then 0
  else if isnan f x || f.heq x (f.inf false) then x
  else if signbit f x then FPBits.quietNaN f true 0
  else impl x

/-- `ccm::log<double>` -/
def logDouble (md : Mode) (x : ℕ) : ℕ := logTests binary64 (logDoubleImpl md) x
/-- `ccm::log<float>` -/
def logFloat (md : Mode) (x : ℕ) : ℕ := logTests binary32 (logFloatImpl md) x
/-- `ccm::log2<double>` -/
def log2Double (md : Mode) (x : ℕ) : ℕ := log2Tests binary64 (log2DoubleImpl md) x
/-- `ccm::log2<float>` -/
def log2Float (md : Mode) (x : ℕ) : ℕ := log2Tests binary32 (log2FloatImpl md) x
/-- log10_impl.hpp l.23-24 `log10_double_impl` behind the tests of log10.hpp -/
def log10Double (md : Mode) (x : ℕ) : ℕ := logTests binary64 (fun x => binary64.hmul md (logDoubleImpl md x) 0x3FDBCB7B1526E50E) x
/-- log10_impl.hpp l.20-21 `log10_float_impl` behind the tests of log10.hpp -/
def log10Float (md : Mode) (x : ℕ) : ℕ := logTests binary32 (fun x => binary32.hmul md (logFloatImpl md x) 0x3EDE5BD9) x

end Verif.CC

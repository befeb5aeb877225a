import Mathlib.Data.Rat.Defs
import Mathlib.Algebra.Field.Rat

/-
The tables of finite difference coefficients (src/qdlib/cfd_table_1.h:5-354,
src/qdlib/cfd_table_2.h:5-354), transcribed entry by entry.  A decimal literal such as
`8.33333333333333333e-2` is the pair (833333333333333333, 19): the integer divided by a power of
ten.  The rounding of the literals to double precision is not modelled.
-/

namespace QDng.Stencil

/-- The value of a decimal literal. -/
def dec (x : Int × Nat) : ℚ := (x.1 : ℚ) / ((10 ^ x.2 : Nat) : ℚ)

/-- The first table (src/qdlib/cfd_table_1.h:5-354); row `r` holds the stencil of order `2 (r + 1)`. -/
def table1 : List (List (Int × Nat)) := [
  [(-5, 1), (0, 0)],
  [(833333333333333333, 19), (-666666666666666667, 18), (0, 0)],
  [(-166666666666666667, 19), (15, 2), (-75, 2), (-44116299336161476, 39)],
  [(357142857142857143, 20), (-380952380952380952, 19), (2, 1), (-8, 1), (397046694025453284, 39)],
  [(-793650793650793651, 21), (992063492063492063, 20), (-595238095238095238, 19),
    (238095238095238095, 18), (-833333333333333333, 18), (-125731453108060207, 39)],
  [(180375180375180375, 21), (-25974025974025974, 19), (178571428571428571, 19),
    (-793650793650793651, 19), (267857142857142857, 18), (-857142857142857143, 18),
    (-372649771030189038, 39)],
  [(-41625041625041625, 21), (679875679875679876, 21), (-530303030303030303, 20),
    (265151515151515152, 19), (-972222222222222222, 19), (291666666666666667, 18), (-875, 3),
    (-100445445631376568, 40)],
  [(971250971250971251, 23), (-1776001776001776, 19), (1554001554001554, 18),
    (-870240870240870241, 20), (353535353535353535, 19), (-113131313131313131, 18),
    (311111111111111111, 18), (-888888888888888889, 18), (53197367388221498, 39)],
  [(-228529640294346177, 23), (462772521596051008, 22), (-44955044955044955, 20),
    (27972027972027972, 19), (-125874125874125874, 19), (440559440559440559, 19),
    (-127272727272727273, 18), (327272727272727273, 18), (-9, 1), (-172112610881440585, 39)],
  [(541254411223451471, 24), (-120278758049655882, 22), (128547922665569724, 21),
    (-881471469706763824, 21), (437062937062937063, 20), (-167832167832167832, 19),
    (524475524475524476, 19), (-13986013986013986, 17), (340909090909090909, 18),
    (-909090909090909091, 18), (212882388204046096, 41)],
  [(-128870097910345588, 24), (311865636943036324, 23), (-363843243100209044, 22),
    (272882432325156783, 21), (-148136177547942254, 20), (622171945701357466, 20),
    (-211538461538461538, 19), (604395604395604396, 19), (-151098901098901099, 18),
    (352564102564102564, 18), (-916666666666666667, 18), (-991944192471356178, 41)],
  [(308167625437782929, 25), (-806838873873468031, 24), (102065117544993706, 22),
    (-83164169851476353, 21), (49118837818528221, 20), (-224543258598986153, 20),
    (829562594268476621, 20), (-255979314802844215, 19), (679945054945054945, 19),
    (-161172161172161172, 18), (362637362637362637, 18), (-923076923076923077, 18),
    (-214071502374565786, 41)],
  [(-739602301050679029, 26), (20832131479594126, 23), (-284074520176283536, 23),
    (249985577755129512, 22), (-159713008010221633, 21), (790579389650597081, 21),
    (-316231755860238832, 20), (105410585286746277, 19), (-300420168067226891, 19),
    (751050420168067227, 19), (-170238095238095238, 18), (371428571428571429, 18),
    (-928571428571428571, 18), (-431149419040899341, 39)],
  [(178052405808496803, 26), (-536896485207159591, 25), (785211109615470902, 24),
    (-742381412727354308, 23), (510387221250056087, 22), (-272206518000029913, 21),
    (1173890608875129, 18), (-42164234114698511, 19), (12912796697626419, 18),
    (-34434124527003784, 18), (817810457516339869, 19), (-178431372549019608, 18),
    (379166666666666667, 18), (-933333333333333333, 18), (-289812264497884035, 39)],
  [(-429781669192923318, 27), (138144107954868209, 25), (-21571733780644805, 23),
    (218114197115408584, 23), (-16061136333043723, 21), (918696998250100956, 22),
    (-425322684375046739, 21), (164053035401803742, 20), (-53903140203449801, 19),
    (153723770209838321, 19), (-38738390092879257, 18), (880417956656346749, 19),
    (-185866013071895425, 18), (386029411764705882, 18), (-9375, 4), (361038143127092565, 40)],
  [(103979436095062093, 27), (-354916475204478611, 26), (589414860607437694, 25),
    (-634754465269548285, 24), (498546736263791049, 23), (-304566733426606895, 22),
    (150760533046170413, 21), (-622186326857211229, 21), (218737380535738323, 20),
    (-666628207347012031, 20), (178878568971448228, 19), (-429308565531475748, 19),
    (939112487100103199, 19), (-192638458892328861, 18), (392156862745098039, 18),
    (-941176470588235294, 18), (437203464078961918, 40)],
  [(-252071360230453559, 28), (910607788832513482, 27), (-160266970834522373, 25),
    (183162252382311283, 24), (-152870033719082879, 23), (993655219174038712, 23),
    (-523927297382674957, 22), (230528010848376981, 21), (-864480040681413679, 21),
    (280956013221459446, 20), (-802731466347026988, 20), (204331645979243233, 19),
    (-469962785752259436, 19), (994152046783625731, 19), (-198830409356725146, 18),
    (397660818713450292, 18), (-944444444444444444, 18), (-10979278445054566, 39)],
  [(612173303416815786, 29), (-233346059184762723, 27), (433877828796668189, 26),
    (-524510086367527766, 25), (463629451342725436, 24), (-319547683386986146, 23),
    (178857939451326968, 22), (-836218937694515695, 22), (333442301405688133, 21),
    (-115264005424188491, 20), (35011441647597254, 19), (-945763618532497251, 20),
    (229873101726648637, 19), (-509257333055960058, 19), (104579630895420369, 18),
    (-204511278195488722, 18), (402631578947368421, 18), (-947368421052631579, 18),
    (205754270575864327, 38)],
  [(-148907019750036272, 29), (597282601441812159, 28), (-116997121341249088, 26),
    (149171329710092587, 25), (-139226574396086414, 24), (101436504202862959, 23),
    (-600816217201572911, 23), (29754707899506468, 21), (-125781265211550069, 21),
    (461197972442350253, 21), (-148608235564757304, 20), (425559947299077734, 20),
    (-10942970073404856, 18), (25533596837944664, 18), (-547148503670242801, 19),
    (10942970073404856, 17), (-20974025974025974, 17), (407142857142857143, 18), (-95, 2),
    (867784095820990092, 39)],
  [(362722227596242202, 30), (-152725148461575664, 28), (314359263916743242, 27),
    (-421611248076573289, 26), (414364804750257185, 25), (-318232170048197518, 24),
    (198895106280123449, 23), (-104037440208064573, 22), (464917310929788562, 22),
    (-180331563027311927, 21), (614930629923133671, 21), (-186342615128222325, 20),
    (506618984879854445, 20), (-124706211662733402, 19), (280588976241150154, 19),
    (-583625070581592321, 19), (11398927159796725, 17), (-214568040654997177, 18),
    (411255411255411255, 18), (-952380952380952381, 18), (-720536145745436632, 39)],
  [(-884688359990834639, 31), (390147566755958076, 29), (-841897380894435847, 28),
    (118489261014772453, 26), (-122322737106426855, 25), (987756102134396858, 25),
    (-649724013848403267, 24), (358011191304222208, 23), (-168678349749104694, 22),
    (690331764713928471, 22), (-248519435297014249, 21), (795262192950445598, 21),
    (-228269703532072348, 20), (592623268785187826, 20), (-140294488120575077, 19),
    (305530218573696835, 19), (-61869869261173609, 18), (118280632411067194, 18),
    (-219038208168642951, 18), (415019762845849802, 18), (-954545454545454545, 18),
    (777617336263005656, 40)],
  [(216028553021017761, 31), (-995788758687358058, 30), (224799312273671082, 28),
    (-331283197034883699, 27), (358430014569686669, 26), (-303611306459028708, 25),
    (209681558523266701, 24), (-121415607221091576, 23), (601657696497373433, 23),
    (-259175623106560863, 22), (982707570945709941, 22), (-331359247062685666, 21),
    (100236172236462414, 20), (-274150214663828824, 20), (682927766885787875, 20),
    (-156097775288180086, 19), (330081753994797473, 19), (-652396878483835006, 19),
    (122324414715719064, 18), (-223188405797101449, 18), (418478260869565217, 18),
    (-956521739130434783, 18), (242393100682187441, 39)],
  [(-52806979627359897, 31), (253953565662485323, 30), (-598604833347286832, 29),
    (921851443354821722, 28), (-104314768590150879, 26), (924924281499337794, 26),
    (-66920992132010911, 24), (406306023658637674, 24), (-21127913230249159, 22),
    (955786550892223862, 23), (-380844179509363046, 22), (135026572735137807, 21),
    (-42963000415725666, 20), (123601247349856916, 20), (-32371755258295859, 19),
    (776922126199100615, 20), (-172032756515515136, 19), (354185086943707633, 19),
    (-684757834757834758, 19), (12613960113960114, 17), (-227051282051282051, 18),
    (421666666666666667, 18), (-958333333333333333, 18), (-331862542938273541, 37)],
  [(129208567173327408, 32), (-647166388624665972, 31), (158997015023469072, 29),
    (-255404728894842382, 28), (301696836007032564, 27), (-279466542827567006, 26),
    (211411264342705782, 25), (-134308332641248379, 24), (731350842585547814, 24),
    (-346714473522037482, 23), (144877119293137091, 22), (-538983408838803722, 22),
    (180035430313517077, 21), (-543883258010065574, 21), (149567895952768033, 20),
    (-376689515732897268, 20), (874037391973988192, 20), (-188028212054908384, 19),
    (377797426073288142, 19), (-715826702033598585, 19), (129743589743589744, 18),
    (-230655270655270655, 18), (424615384615384615, 18), (-96, 2), (-581765595244536689, 40)],
  [(-316429144097944672, 33), (164806845884346183, 31), (-421332284260850242, 30),
    (704774002763604042, 29), (-867543236735198308, 28), (838046766686201566, 27),
    (-66161586843647492, 25), (438976877788010344, 25), (-249829487799941181, 24),
    (123873787700804169, 23), (-541741364878183566, 23), (211068064238253337, 22),
    (-73873822483388668, 21), (233933771197397449, 21), (-674458405270418619, 21),
    (178057018991390515, 20), (-43277747671518528, 19), (973749322609166881, 20),
    (-204023667594301632, 19), (400888610009855839, 19), (-74565281461833186, 18),
    (133152288324702118, 18), (-234025234025234025, 18), (42735042735042735, 17),
    (-961538461538461538, 18), (-123445032263027787, 38)]]

/-- The second table (src/qdlib/cfd_table_2.h:5-354); row `r` holds the stencil of order `2 (r + 1)`. -/
def table2 : List (List (Int × Nat)) := [
  [(1, 0), (-2, 0)],
  [(-833333333333333333, 19), (133333333333333333, 17), (-25, 1)],
  [(111111111111111111, 19), (-15, 2), (15, 1), (-272222222222222222, 17)],
  [(-178571428571428571, 20), (253968253968253968, 19), (-2, 1), (16, 1),
    (-284722222222222222, 17)],
  [(31746031746031746, 20), (-496031746031746032, 20), (396825396825396825, 19),
    (-238095238095238095, 18), (166666666666666667, 17), (-292722222222222222, 17)],
  [(-601250601250601251, 22), (103896103896103896, 20), (-892857142857142857, 20),
    (529100529100529101, 19), (-267857142857142857, 18), (171428571428571429, 17),
    (-298277777777777778, 17)],
  [(118928690357261786, 22), (-226625226625226625, 21), (212121212121212121, 20),
    (-132575757575757576, 19), (648148148148148148, 19), (-291666666666666667, 18), (175, 2),
    (-302359410430839002, 17)],
  [(-242812742812742813, 23), (507429078857650286, 22), (-518000518000518001, 21),
    (348096348096348096, 20), (-176767676767676768, 19), (754208754208754209, 19),
    (-311111111111111111, 18), (177777777777777778, 17), (-305484410430839002, 17)],
  [(507843645098547059, 24), (-115693130399012752, 22), (128442985585842729, 21),
    (-932400932400932401, 21), (503496503496503497, 20), (-22027972027972028, 18),
    (848484848484848485, 19), (-327272727272727273, 18), (18, 1), (-307953546233308138, 17)],
  [(-108250882244690294, 24), (267286128999235294, 23), (-321369806663924311, 22),
    (251848991344789664, 21), (-145687645687645688, 20), (671328671328671329, 20),
    (-262237762237762238, 19), (932400932400932401, 19), (-340909090909090909, 18),
    (181818181818181818, 17), (-309953546233308138, 17)],
  [(23430926892790107, 24), (-623731273886072648, 24), (808540540222686766, 23),
    (-682206080812891958, 22), (423246221565549297, 21), (-207390648567119155, 20),
    (846153846153846154, 20), (-302197802197802198, 19), (100732600732600733, 18),
    (-352564102564102564, 18), (183333333333333333, 17), (-311606438795291609, 17)],
  [(-513612709062971548, 26), (146697977067903278, 24), (-204130235089987412, 23),
    (184809266336614118, 22), (-122797094546320553, 21), (641552167425674723, 21),
    (-276520864756158874, 20), (102391725921137686, 19), (-339972527472527473, 19),
    (107448107448107448, 18), (-362637362637362637, 18), (184615384615384615, 17),
    (-312995327684180498, 17)],
  [(113784969392412158, 26), (-347202191326568766, 25), (516499127593242793, 24),
    (-499971155510259024, 23), (354917795578270294, 22), (-19764484741264927, 20),
    (903519302457825235, 21), (-351368617622487592, 20), (120168067226890756, 19),
    (-375525210084033613, 19), (113492063492063492, 18), (-371428571428571429, 18),
    (185714285714285714, 17), (-31417875963684322, 16)],
  [(-254360579726424005, 27), (825994592626399371, 26), (-13086851826924515, 23),
    (134978438677700783, 23), (-102077444250011217, 22), (604903373333399806, 22),
    (-29347265221878225, 20), (120469240327710031, 20), (-4304265565875473, 18),
    (137736498108015136, 19), (-408905228758169935, 19), (118954248366013072, 18),
    (-379166666666666667, 18), (186666666666666667, 17), (-315199167800108526, 17)],
  [(573042225590564424, 28), (-197348725649811728, 26), (331872827394535462, 25),
    (-363523661859014307, 24), (292020660600794964, 23), (-183739399650020191, 22),
    (945161520833437197, 22), (-410132588504509355, 21), (154008972009856574, 20),
    (-512412567366127738, 20), (154953560371517028, 19), (-440208978328173375, 19),
    (123910675381263617, 18), (-386029411764705882, 18), (1875, 3), (-316088056688997415, 17)],
  [(-129974295118827616, 28), (473221966939304815, 27), (-842021229439196705, 26),
    (976545331183920439, 25), (-830911227106318415, 24), (553757697139285264, 23),
    (-301521066092340826, 22), (138263628190491384, 21), (-546843451339345807, 21),
    (190465202099146295, 20), (-596261896571494095, 20), (171723426212590299, 19),
    (-4695562435500516, 17), (128425639261552574, 18), (-392156862745098039, 18),
    (188235294117647059, 17), (-316869306688997415, 17)],
  [(296554541447592422, 29), (-113825973604064185, 27), (21368929444602983, 25),
    (-261660360546158976, 25), (235184667260127506, 24), (-165609203195673119, 23),
    (952595086150318104, 23), (-461056021696753962, 22), (192106675706980818, 21),
    (-702390033053648614, 21), (229351847527721997, 20), (-681105486597477444, 20),
    (187985114300903775, 19), (-497076023391812865, 19), (132553606237816764, 18),
    (-397660818713450292, 18), (188888888888888889, 17), (-317561348211488764, 17)],
  [(-68019255935201754, 29), (274524775511485557, 28), (-542347285995835236, 27),
    (699346781823370354, 26), (-662327787632464908, 25), (491611820595363302, 24),
    (-298096565752211613, 23), (152039806853548308, 22), (-666884602811376267, 22),
    (256142234275974423, 21), (-87528604118993135, 20), (270218176723570643, 20),
    (-766243672422162125, 20), (203702933222384023, 19), (-522898154477101846, 19),
    (136340852130325815, 18), (-402631578947368421, 18), (189473684210526316, 17),
    (-318178632162106048, 17)],
  [(156744231315827655, 30), (-663647334935346843, 29), (137643672166175397, 27),
    (-186464162137615733, 26), (185635432528115219, 25), (-144909291718375656, 24),
    (924332641848573709, 24), (-495911798325107799, 23), (22869320947554558, 21),
    (-922395944884700507, 22), (330240523477238453, 21), (-106389986824769433, 20),
    (312656287811567315, 20), (-851119894598155468, 20), (21885940146809712, 18),
    (-547148503670242801, 19), (139826839826839827, 18), (-407142857142857143, 18), (19, 1),
    (-318732648782604663, 17)],
  [(-362722227596242202, 31), (160763314170079646, 29), (-349288071018603602, 28),
    (496013233031262693, 27), (-517956005937821482, 26), (424309560064263358, 25),
    (-28413586611446207, 23), (160057600320099344, 23), (-774862184882980937, 23),
    (32787556914056714, 21), (-122986125984626734, 21), (414094700284938499, 21),
    (-126654746219963611, 20), (356303461893524005, 20), (-935296587470500514, 20),
    (233450028232636928, 19), (-569946357989836251, 19), (143045360436664784, 18),
    (-411255411255411255, 18), (190476190476190476, 17), (-319232648782604663, 17)],
  [(842560342848413942, 32), (-390147566755958076, 30), (88620776936256405, 28),
    (-131654734460858281, 27), (143909102478149242, 26), (-123469512766799607, 25),
    (866298685131204355, 25), (-511444559006031726, 24), (259505153460161068, 23),
    (-115055294118988078, 22), (45185351872184409, 21), (-15905243859008912, 20),
    (507266007849049661, 21), (-148155817196296956, 20), (400841394630214506, 20),
    (-101843406191232278, 19), (247479477044694436, 19), (-591403162055335968, 19),
    (146025472112428634, 18), (-415019762845849802, 18), (190909090909090909, 17),
    (-319686163521833688, 17)],
  [(-196389593655470691, 32), (948370246368912437, 31), (-224799312273671082, 29),
    (348719154773561789, 28), (-398255571744096299, 27), (357189772304739656, 26),
    (-262101948154083377, 25), (161887476294788768, 24), (-859510994996247762, 24),
    (398731727856247482, 23), (-163784595157618323, 22), (60247135829579212, 21),
    (-200472344472924828, 21), (609222699252952943, 21), (-170731941721446969, 20),
    (445993643680514531, 20), (-110027251331599158, 19), (260958751393534002, 19),
    (-611622073578595318, 19), (148792270531400966, 18), (-418478260869565217, 18),
    (191304347826086957, 17), (-320099386662329556, 17)],
  [(459191127194433887, 33), (-230866877874986657, 31), (570099841283130317, 30),
    (-921851443354821723, 29), (109805019568579873, 27), (-102769364611037533, 26),
    (787305789788363659, 26), (-507882529573297093, 25), (281705509736655454, 24),
    (-136540935841746266, 23), (585914122322096995, 23), (-225044287891896346, 22),
    (781145462104103018, 22), (-247202494699713832, 21), (71937233907324131, 20),
    (-194230531549775154, 20), (491522161472900389, 20), (-118061695647902544, 19),
    (273903133903133903, 19), (-630698005698005698, 19), (151367521367521368, 18),
    (-421666666666666667, 18), (191666666666666667, 17), (-320477458495977949, 17)],
  [(-10767380597777284, 32), (562753381412753019, 32), (-144542740930426429, 30),
    (243242598947468935, 29), (-301696836007032564, 28), (294175308239544217, 27),
    (-234901404825228646, 26), (158009803107351034, 25), (-914188553231934767, 25),
    (462285964696049976, 24), (-20696731327591013, 22), (829205244367390342, 23),
    (-300059050522528461, 22), (988878650927391953, 22), (-299135791905536066, 21),
    (837087812739771707, 21), (-218509347993497048, 20), (537223463014023955, 20),
    (-125932475357762714, 19), (286330680813439434, 19), (-648717948717948718, 19),
    (153770180436847104, 18), (-424615384615384615, 18), (192, 2), (-320824680718200171, 17)],
  [(253143315278355737, 34), (-137339038236955153, 32), (36637589935726108, 30),
    (-640703638876003674, 30), (826231654033522199, 29), (-838046766686201566, 28),
    (696437756248920969, 27), (-487752086431122605, 26), (293917044470519037, 25),
    (-154842234626005211, 24), (722321819837578087, 24), (-301525806054647625, 23),
    (11365203458982872, 21), (-389889618662329081, 22), (122628800958257931, 21),
    (-356114037982781031, 21), (961727726033745067, 21), (-24343733065229172, 19),
    (58292476455514752, 19), (-133629536669951946, 19), (298261125847332744, 19),
    (-665761441623510589, 19), (15601682268348935, 17), (-42735042735042735, 17),
    (192307692307692308, 17), (-321144680718200171, 17)]]

/-- Models the table `_cfc` after the constructor (src/qdlib/HOFD.h:103-111): 50 rows of 26 entries,
entries that are not assigned are zero. -/
def cfTable : List (List ℚ) :=
  (table1 ++ table2).map (fun r => r.map dec ++ List.replicate (26 - r.length) 0)

end QDng.Stencil

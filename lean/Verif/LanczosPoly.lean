import Mathlib.Data.Real.Basic
import Mathlib.Tactic.Ring
import Mathlib.Tactic.Positivity

/-!
# The polynomial inequality behind the error bound of `gamma`
-/

namespace Verif
namespace Special

set_option maxRecDepth 100000

/-- the numerator of the Lanczos sum of `gamma` in the variable `y = z - ½`, times a number that makes the coefficients integers -/
noncomputable def lzN (y : ℝ) : ℝ :=
  19647870794646335203505826225915 + 22284235232947234536074170127406 * y + 11056737337459718848918460823836 *
  y ^ 2 + 3134632024989366730132442440408 * y ^ 3 + 555384698028847950366063016080 * y ^ 4 +
  62972125794763018406464272544 * y ^ 5 + 4462202777777111536143645504 * y ^ 6 + 180666666666696941358408832 *
  y ^ 7 + 3199999999999391776000000 * y ^ 8

/-- its derivative -/
noncomputable def lzN' (y : ℝ) : ℝ :=
  22284235232947234536074170127406 + 22113474674919437697836921647672 * y + 9403896074968100190397327321224 * y
  ^ 2 + 2221538792115391801464252064320 * y ^ 3 + 314860628973815092032321362720 * y ^ 4 +
  26773216666662669216861873024 * y ^ 5 + 1264666666666878589508861824 * y ^ 6 + 25599999999995134208000000 * y
  ^ 7

/-- its second derivative -/
noncomputable def lzN'' (y : ℝ) : ℝ :=
  22113474674919437697836921647672 + 18807792149936200380794654642448 * y + 6664616376346175404392756192960 * y
  ^ 2 + 1259442515895260368129285450880 * y ^ 3 + 133866083333313346084309365120 * y ^ 4 +
  7588000000001271537053170944 * y ^ 5 + 179199999999965939456000000 * y ^ 6

theorem lzN_shift (y : ℝ) : lzN (y + 1) =
    56746478283310710095272704960525 + 56366068887257308860745571258190 * y + 24493479500215194217357218235012
    * y ^ 2 + 6081638663941265305271210449368 * y ^ 3 + 943725702002654065812403370480 * y ^ 4 +
    93718542461426289331308731040 * y ^ 5 + 5816469444443973095380507328 * y ^ 6 + 206266666666692075566408832
    * y ^ 7 + 3199999999999391776000000 * y ^ 8 := by
  unfold lzN; ring

theorem lzN_shift' (y : ℝ) : lzN' (y + 1) =
    56366068887257308860745571258190 + 48986959000430388434714436470024 * y + 18244915991823795915813631348104
    * y ^ 2 + 3774902808010616263249613481920 * y ^ 3 + 468592712307131446656543655200 * y ^ 4 +
    34898816666663838572283043968 * y ^ 5 + 1443866666666844528964861824 * y ^ 6 + 25599999999995134208000000 *
    y ^ 7 := by
  unfold lzN'; ring

theorem lzN_shift'' (y : ℝ) : lzN'' (y + 1) =
    48986959000430388434714436470024 + 36489831983647591831627262696208 * y + 11324708424031848789748840445760
    * y ^ 2 + 1874370849228525786626174620800 * y ^ 3 + 174494083333319192861415219840 * y ^ 4 +
    8663200000001067173789170944 * y ^ 5 + 179199999999965939456000000 * y ^ 6 := by
  unfold lzN''; ring

theorem lzN_v0 (y : ℝ) : lzN' y ^ 2 - lzN'' y * lzN y =
    62104446683825906867932008077017319261844464961431931166468956 +
    123248801379216048640580454718759312667333319706071366086658912 * y +
    113557359640817957040396773142107251517788312465225307358951392 * y ^ 2 +
    64384554951376345273806180148737547587448197791238465641551232 * y ^ 3 +
    25096199098554787941180596107210337865785172311189440105691712 * y ^ 4 +
    7114077436775796065869958457707196561758870366334795042145280 * y ^ 5 +
    1512437771115665823324238345634138533823345359393572338836480 * y ^ 6 +
    244976316376767065432266648458062931323525659580678859747328 * y ^ 7 +
    30379016327667138504848425803451793280368053109236690084864 * y ^ 8 +
    2870191435940839465249664010583925931999004153354510458880 * y ^ 9 +
    203374310127288786491959010808627276434250175490394152960 * y ^ 10 +
    10480098832395212343092267396633960907995261192304295936 * y ^ 11 +
    371273600000028114866464516779251348477728755029229568 * y ^ 12 +
    8093866666666484571619382082473549124051918848000000 * y ^ 13 +
    81919999999968858931200002959491473408000000000000 * y ^ 14 := by
  unfold lzN lzN' lzN''; ring

theorem lzN_v1 (y : ℝ) : lzN' (y + 1) ^ 2 - lzN'' (y + 1) * lzN (y + 1) =
    397296316719681229047185977083738506772239306998353504376273500 +
    690532847373794075600263984620810351849964797745109408192307360 * y +
    557223755405774756724333945603565271431108168531640672721656288 * y ^ 2 +
    276701591362201378262398900446959436119664963434380891342644864 * y ^ 3 +
    94461855873510856124142830986301700070917656887370156092297792 * y ^ 4 +
    23452472503973888293054713452023678612654038505034372529515520 * y ^ 5 +
    4366888126221402933404797486500102101426118098608948090954752 * y ^ 6 +
    619506907437779490519920479439975940043210661750368790777856 * y ^ 7 +
    67286242758367912709829725979694717885833341260522074563584 * y ^ 8 +
    5567971283502136668434239139771395332499805537917938769920 * y ^ 9 +
    345556302670304561262433884757581321436088403228198559744 * y ^ 10 +
    15596522512395524182727110201495168817724567922799050752 * y ^ 11 +
    483948586666689580460255684120721211170531700053229568 * y ^ 12 +
    9240746666666048596656182123906429751763918848000000 * y ^ 13 +
    81919999999968858931200002959491473408000000000000 * y ^ 14 := by
  rw [lzN_shift, lzN_shift', lzN_shift'']; ring

theorem lzN_p (y : ℝ) : lzN y ^ 2 =
    386038826763116411572610088221280066655094850942313412617587225 +
    875675549228905683397316960782986972920872472538958823377852980 * y +
    931069833150827869668867286128856833227808470628630913378108716 * y ^ 2 +
    615959561505229486763075479374540851760674741710523773548845472 * y ^ 3 +
    283781448953150348532387512220929248586580940742993166386424592 * y ^ 4 +
    96544788793661662086581797892051509993049456486330955436862656 * y ^ 5 +
    25089320282720686526391604224935684537122628121237029193326272 * y ^ 6 +
    5080358813610209138145683653517884925274041323574399927366656 * y ^ 7 +
    810093638691762214195593280059323229816221282552154105848576 * y ^ 8 +
    102060024459378409840392526380021187561446614650818092305408 * y ^ 9 +
    10125377068992656187271557951513934146540204000313449407488 * y ^ 10 +
    782729438468894631290975473933730345257483718935628521472 * y ^ 11 +
    46219643817897238432175373953821395929363615987428831232 * y ^ 12 +
    2015364208790139867505306270370583813564938462909382656 * y ^ 13 +
    61198542222223469493401990915271930106736665063604224 * y ^ 14 +
    1156266666666640653088483154639078446293131264000000 * y ^ 15 +
    10239999999996107366400000369936434176000000000000 * y ^ 16 := by
  unfold lzN; ring

theorem lzN_q (y : ℝ) : lzN (y + 1) ^ 2 =
    3220162797558254035436499366773500942950607755995244941808275625 +
    6397151808052684718666859199815446708385237676320166557065899500 * y +
    5956971126886391564371027877493117072528966984257324534907878700 * y ^ 2 +
    3451425458336080262494675711335868922814962089664900351801892960 * y ^ 3 +
    1392632885893895212886183092804710261399085427165036489263891984 * y ^ 4 +
    414945594214498451873820891462762186831810953609474939394599232 * y ^ 5 +
    94441801065219266968372586031180416178646537770910847218980544 * y ^ 6 +
    16748896680660348740349463957622344642742552426946033702804480 * y ^ 7 +
    2339090033291870425244156333909638418941948145388412356399872 * y ^ 8 +
    258101645056112076772319403474676947611673543079060362187776 * y ^ 9 +
    22427105559330140453774290678085697851966039047082209272832 * y ^ 10 +
    1518462874258181692526534389869349840850435349150218280960 * y ^ 11 +
    78533184007724706846206044477962796148684547251158790144 * y ^ 12 +
    2999286199901263529112408874628658475058590556519841792 * y ^ 13 +
    79771342222222612173697238279250478902253634023604224 * y ^ 14 +
    1320106666666578370950883160558061393109131264000000 * y ^ 15 +
    10239999999996107366400000369936434176000000000000 * y ^ 16 := by
  rw [lzN_shift]; ring

theorem lzN_pq (y : ℝ) : lzN y ^ 2 * lzN (y + 1) ^ 2 =

    1243107868355623133201940699644269793944108464103163318199072347227900945173456513868456168430634172297709340836841925278890625
    +
    5289366804964520814776704139060544170047395833916726987308819794944488431426749908941525625957905759047358231811999922901500000
    * y +
    10899648006543270470726568573887162543356664088971620956842285906383396212130019306820657059281785433369880218709292959167965000
    * y ^ 2 +
    14488443329196951109554164772722064885862330028387422216595542840174257242461653974265682617886806282301157761478940616426224000
    * y ^ 3 +
    13960504649554327717494211427671943044104754317663490656552099445706138281808721859975262166437886829067375067767234196012308400
    * y ^ 4 +
    10388734072866134880006896687591277003420155387020734399380334485541034184632573488851446121435059420153689323196445042043873280
    * y ^ 5 +
    6211274157528550270863694844147383958397611247650271088432010831860406717206949149450055301950827110372046015974958285734253824
    * y ^ 6 +
    3064739777221907496757260860095000447742883088987858952460496010669163894111845275113252871729231293148847954059225445342515200
    * y ^ 7 +
    1272076533709277121617002789744740796557477149211053615256668086101077779206337426377426657719338760134725927799507903073495296
    * y ^ 8 +
    450488365216670975776312479962874550911341645987445457242061297860519283030476050486094875460838114055614268794999289183051776
    * y ^ 9 +
    137576731663307377976609382998539394044525244035204592916902120031989214119900743369848048902301099512803747340999771831613440
    * y ^ 10 +
    36529228672668815900683915217738249067728381333399516682537147293088183145257878263549092551813245120174244511169313272266752
    * y ^ 11 +
    8485471789654603080602417879668603557483051224803824117501845907144329984601136680257544531715781428044561564489429989568512
    * y ^ 12 +
    1732574771582800521958106203852966096642357567884477982046943509992418925324623781027802199040896459577860611922891948425216
    * y ^ 13 +
    312017381914481772703308280684946762872431098793316683850542215931109990041833553869286517252630470748255121444358737756160
    * y ^ 14 +
    49676746328405116821009811723410233462327649805625258960991587567800223849429037838370488412956136557440018069664712097792
    * y ^ 15 +
    7001757214574072947093879523816192994261745645205351012848982036624598270866887949525609526915646782581298648789068480512
    * y ^ 16 +
    874047264934717541686267547692972448078209920095999791635097151690260956178599070364562594308306821194498124857628164096
    * y ^ 17 +
    96592256809565809790138567293913708674074533097901024313930320146523124799348490166025232707313043178907688653320355840
    * y ^ 18 +
    9437070733442616638195824761058754382150154904511715600502904627188582274404313259938660553301248559621235359940083712
    * y ^ 19 +
    813210245084787687055906309168764373386678788415772655268082208715669658182520521699908829391048735176651387339538432
    * y ^ 20 +
    61595483946686104698059444969530037963968542435811029997176505441853729917966651456784555154103759732555128458182656
    * y ^ 21 +
    4081640527032852311584105763748203093878400114788822851379464569844680900168910833823502351693648283167565503528960
    * y ^ 22 +
    235155200767412363920676195665925778387827995759203832185922995696080171961045837408812845393179828263549971464192
    * y ^ 23 +
    11683294299010055947831872406649971979301425624213787750167174891409144836786521626907133890165349071060228636672
    * y ^ 24 +
    495252348200742847126047675582470632893271800578403111239548469147450369964700394778961473701416399844174462976
    * y ^ 25 +
    17660145239036724903005937982875261064267140589982005534345793058293465722585232143363274512157724295903051776
    * y ^ 26 +
    519704623255613741246178385281062405849857532534127114200744611622904746407290948187064539382221320960868352
    * y ^ 27 +
    12287829196568178648260686009264939927937493054641414296348232835020733375029400837824872691378246622642176
    * y ^ 28 +
    224375567729626921148297743495405238875504273402470042798602963422788620990533340100830152225718272000000 *
    y ^ 29 +
    2969926951821553809182476853578042716998256217898702714251988566266605371856457188501356544000000000000 * y
    ^ 30 +
    25358062933322523192119635095350297732264009870287242643645876921702302874943356928000000000000000000 * y ^
    31 + 104857599999920278863872022728894515770559946012924765025765330853980798976000000000000000000000000 *
    y ^ 32 := by
  rw [lzN_q, lzN_p y]; ring

theorem lzN_x (y : ℝ) : (lzN' y ^ 2 - lzN'' y * lzN y) * lzN (y + 1) ^ 2
      - (lzN' (y + 1) ^ 2 - lzN'' (y + 1) * lzN (y + 1)) * lzN y ^ 2 =

    46614624790423012598947093394507472030671865045047672303725821320503645075661481878311528503491718941659798384136163747960000
    +
    179697617844844688457095157447419165827662897936932901486316120606780162867082538629841787302859177324965239827371269145036000
    * y +
    334365522748827196972453243535252223485271271293303822715002071282281027635818738627532691457489006344802128828493750736921600
    * y ^ 2 +
    399893292960414057657289217521870170680604466176519813848436532857975708482457666548472956014497793771638974941751921166005760
    * y ^ 3 +
    345355651769727925939349941755686460349277426999716163343976755930503618872227152500969562319843520400123819480869075532568576
    * y ^ 4 +
    229390072328992630820431530992758231362763268475476035452053917868650629912097829384818030737108810534794690618913269989678080
    * y ^ 5 +
    121871343561199476785944567848461551384061959946160760690431230320202313132945036820122232670770747272666295658657707165532160
    * y ^ 6 +
    53177426607919330787091916409181645049831961743328322729309234301106977902013458188005037749973911961684876126047718863134720
    * y ^ 7 +
    19417121879849575067741234100393186746876229784449132383169604130879974643114474911878724776296774511425937057547926735896576
    * y ^ 8 +
    6014719873364062623819336285142469246732994421959431086469517741641537950918455529218745932657659047968600223430310334111744
    * y ^ 9 +
    1596717473463370985587175594734155119888949901736833250391224620002518934604418094402636527163012202747487130576862178181120
    * y ^ 10 +
    366016430457329351633530068770756625516029112837029343454952636613151567528602271895414691493766144614398175620036347822080
    * y ^ 11 +
    72850466680606226260176048119519057612107725307955025881635668606293652020024849256714001067121815806371233346419101270016
    * y ^ 12 +
    12638842941215956324678448158070134197947115069437723517118367721709364232595074299836217638710039020372827423128039194624
    * y ^ 13 +
    1916009196310744866733584321774127729455564538511840550956595656197141862078838477973926412959289580781214134015025479680
    * y ^ 14 +
    254111801711955025675498717138690880137970739905227590067633748732150575879531023421127624852877322496128805868866109440
    * y ^ 15 +
    29484180632167463337367467928909703325945772242011854371609784583696860386464670476775630971795558763970834797833486336
    * y ^ 16 +
    2989293837776004122105160499806846845406272645664880985298844580179610031160241394885391228808110262532421537878769664
    * y ^ 17 +
    264174813802579357757779002319626769703317681254565543515896341149414130225721197467661387551862805810970981186928640
    * y ^ 18 +
    20270922780553780816550839200992256883421260685143068035652292924383426775035326336493558611874440351848477176627200
    * y ^ 19 +
    1343122198225237401112389120856413822325163665081116250418694441016465656127494547911298206875614526701610882564096
    * y ^ 20 +
    76267540339271611629945503424165144059313482814102471241400003492766172467495117177967228664495387684392008679424
    * y ^ 21 +
    3673982304439119505476682106358367901972597381928061743114658423344181153308465383204563794133214635079027916800
    * y ^ 22 +
    148103838233961814090410806068731535992668639047891192791174601002392045763983631544527895607657446685592780800
    * y ^ 23 +
    4903367351382552445489549188940790625296018303208420193216348315974351466475524423691577007843913891210854400
    * y ^ 24 +
    129849899929053674048713017866302266133360512350260879545930389074620627085292412305568864424253625900990464
    * y ^ 25 +
    2644688739530622934935684854028748695350608491399315960850521322232933231191160205613612717528055808000000
    * y ^ 26 +
    38896229125681356816567617015907395745620956447253634651804444242961547777540637573162991616000000000000 *
    y ^ 27 +
    367691912533176586285734708882579317117828143119165018332865215364683391686678675456000000000000000000 * y
    ^ 28 + 1677721599998724461821952363662312252328959136206796240412245293663692783616000000000000000000000000
    * y ^ 29 := by
  rw [lzN_v1, lzN_v0 y, lzN_q, lzN_p y]; ring

theorem lz_upper {y : ℝ} (hy : 0 ≤ y) :
    0 ≤ (y + 7 + 1) ^ 2 * (y + 7) ^ 2 * (y + (17 / 2)) ^ 2
        * (lzN y ^ 2 * lzN (y + 1) ^ 2)
      - 8000000000 * (y + 10) ^ 4 * (lzN y ^ 2 * lzN (y + 1) ^ 2
        * ((y + 7 + 1 + 7) * (y + 7) ^ 2 * (y + (17 / 2)) ^ 2 - (y + 7 + 7) * (y + 7 + 1) ^ 2 * (y + (17 / 2)) ^ 2
        + (y + 7 + 1) ^ 2 * (y + 7) ^ 2)
      + (y + 7 + 1) ^ 2 * (y + 7) ^ 2 * (y + (17 / 2)) ^ 2
        * ((lzN' y ^ 2 - lzN'' y * lzN y) * lzN (y + 1) ^ 2
        - (lzN' (y + 1) ^ 2 - lzN'' (y + 1) * lzN (y + 1)) * lzN y ^ 2)) := by
  rw [lzN_x y, lzN_pq y]
  refine le_of_le_of_eq (?_ : 0 ≤

    407941836216706578924543234052443568015075708153577421633834517497827916118248188817129361530540040301147415048609308561989922250000
    +
    1603393575461453258636923442935939910886195387357279265960391509122474079798857132239555309392520527932547020111953021642150225062500
    * y +
    (13960518912270878460276634313194643256534979401393771314550468039546647011162466930640238257002041897686843542735218793475044567000625
    / 4) * y ^ 2 +
    (10728214548447145938753133347013730503805776298660833892737820338891229175805870463050933315918593703992629534186913210213727916498625
    / 2) * y ^ 3 +
    (24966906965520543217102862732909226892688551387488327893273953725109286219584855201680440814187181314163553081276872691959971073818725
    / 4) * y ^ 4 +
    5691819546728911920904794707744463840162607059176240808539307156559605114295008682405528893621927549251816782886635667772397544270955
    * y ^ 5 +
    4180968999887043902852364296840447936052291530591544112034520122015454204552041458419054283954651119110001924716137073282787955855959
    * y ^ 6 +
    2535101660448624617522673002286903964189415177704896732953273064448872113338683103342247295634084948330719363025144409573746811709648
    * y ^ 7 +
    1295954205787455310141260108721535557069675247221246700860841915066578823450463235350223016925024420431874057027331910078557557836228
    * y ^ 8 +
    568406523615849776784121704622219587969760129380650809458120475868536717676829160049767598154618231383877013822752350801477353922384
    * y ^ 9 +
    216872949401539319635059983898086768050011091835320368511174917664007874097815592827168890056975323555319378816028641821103950370352
    * y ^ 10 +
    72734294457742011818327554496417985597201893330159866487054986921821515418673957183637798270616281824082225496006201921988564761472
    * y ^ 11 +
    21601571905283104271931954751583099285175308369207343954937870255938834173808124910878966367523431475123106476018189527071838501952
    * y ^ 12 +
    5710302204692537899764332290023065970905411576357110524542982101536295386103805590743954366807152596858844089107701940516093401856
    * y ^ 13 +
    1348241859933131711955061275157252003162803416931467140510845578445183830310031504550408813672111878408260603361454617071762754304
    * y ^ 14 +
    285027923206808566457264389037537695889336669322987701776520459282342895505760304390013306094201208672330593066688084934801285120
    * y ^ 15 +
    54060222755650080513786386421812079406041827690461025331118189749975562999573888900286592956375444667633088682834239515951723520
    * y ^ 16 +
    9215563316878292953169910397648083260422299944391101781945337738296518345035401587868790992667141711304056628656694673386229760
    * y ^ 17 +
    1414448340342226363450207171153289881034471497552597755525467521820948803192867206438103451406116993985867508594106432028405760
    * y ^ 18 +
    195801664198439097680522898430597937587634451124163447321805230483752004091076910541821381376527339521998105526722664767651840
    * y ^ 19 +
    24482476984883067885280334847194103937229871580484437506141621412714269240970207785227512157995178975294308824678277236899840
    * y ^ 20 +
    2767749875226481530424253454080435016154907603764210153055404907533242046219253388188302348825024271858257121648933886033920
    * y ^ 21 +
    282925303627749296846583568272944239489221167593260598119550279893852728514037430234015545651381818571128963333528889917440
    * y ^ 22 +
    26120806505102063208600372561011704461193684031860210786693660053717953998331133487311188969058346509101863214655151800320
    * y ^ 23 +
    2172163215045735369094159652683361409720414427613576335209511286060573985798059243525466766382937447283741655955919339520
    * y ^ 24 +
    161981581644219510750006957476436748760719621636793954074489700195456095321432060560971561910356195760058588890980679680
    * y ^ 25 +
    10765551720522427178360704924160242938137136987333709240693210797951821819588945625888239965314457929966508421636161536
    * y ^ 26 +
    632764536638465673464224046448952664963724727552467514860429721200351083204449116190171438942520429519505378206810112
    * y ^ 27 +
    32592182644735134403256294245211628311370116826950414451942484834699786477075254626278265005713772623423910478610432
    * y ^ 28 +
    1456065712805651777741055415235772113953796324808634167720654030846265431038376618988003639877908321247234092957696
    * y ^ 29 +
    55800624297616667210140242941284944827041538088828818738679396438866901777622403544713138086859530508556302286848
    * y ^ 30 +
    1814110592142827062479843333464794950229658468191047850392526705997765579141833091393715231088021466532164927488
    * y ^ 31 +
    49551814133283387528240731984161381208294170786948321870359068115488614439897354703571791928856345020735684608
    * y ^ 32 +
    1130689340851563716228023879678723357034471276654068843957950341217273661569315388117555155526111041761050624
    * y ^ 33 +
    21557031178837717556237950697052742304209851282201710194766494815408380762020915048344761363687101406642176
    * y ^ 34 +
    343394193140070708254816032337095115113324248381682860934006456185516438948640323168427680068534272000000 *
    y ^ 35 +
    4442775935905431265532296914576796037717438734822488510433041295707476334442846191609708544000000000000 * y
    ^ 36 +
    41695251623360488302712448854439011693504153495096542852883395859125771072520060928000000000000000000 * y ^
    37 + 206486642478931463815560043732049629709803564992457687201121201822263934976000000000000000000000000 *
    y ^ 38) (by ring)
  positivity

theorem lz_lower {y : ℝ} (hy : 0 ≤ y) :
    0 ≤ (y + 7 + 1) ^ 2 * (y + 7) ^ 2 * (y + (17 / 2)) ^ 2
        * (lzN y ^ 2 * lzN (y + 1) ^ 2)
      + 8000000000 * (y + 10) ^ 4 * (lzN y ^ 2 * lzN (y + 1) ^ 2
        * ((y + 7 + 1 + 7) * (y + 7) ^ 2 * (y + (17 / 2)) ^ 2 - (y + 7 + 7) * (y + 7 + 1) ^ 2 * (y + (17 / 2)) ^ 2
        + (y + 7 + 1) ^ 2 * (y + 7) ^ 2)
      + (y + 7 + 1) ^ 2 * (y + 7) ^ 2 * (y + (17 / 2)) ^ 2
        * ((lzN' y ^ 2 - lzN'' y * lzN y) * lzN (y + 1) ^ 2
        - (lzN' (y + 1) ^ 2 - lzN'' (y + 1) * lzN (y + 1)) * lzN y ^ 2)) := by
  rw [lzN_x y, lzN_pq y]
  refine le_of_le_of_eq (?_ : 0 ≤

    155374980544380755132182597872756577650284930571699242334711514793189852988993977355389288106138696143904168170287283561989922250000
    +
    1227815570419390310391396440492137358546490521195973014558239491560083685707520373138531601012525072245344337689057546642150225062500
    * y +
    (13745703173925119556789508612516242263279030970052057258092959796767706914988817387618821048047852969685244308394171847475044567000625
    / 4) * y ^ 2 +
    (11252417705055357542363538016624101595742584382195207924523219918065956421121534650987438267641174332537039090682566582213727916498625
    / 2) * y ^ 3 +
    (25887408150062948513906153930174757361913046219515326167087508241101418805281392999582049876942271145748967157832072311949971073818725
    / 4) * y ^ 4 +
    5736023223722980481350664024484980030981891527404778676786836672570357311233683483437986256471932560725794802338963496589897544270955
    * y ^ 5 +
    4126187642510708024333317387368132948712040902964542973587713634942216649143219499052416638774262433554066178774216794971887955855959
    * y ^ 6 +
    2483326422719315605634927284044603883808630749502675706871848976949223360967260017832909588476615250997784092675648441649746811709648
    * y ^ 7 +
    1273498789811777184767096771931513151784439350684701004595793372636204440597059722109592775459812079457998469308796240984573557836228
    * y ^ 8 +
    563103938087260178562585576020689931177976883073022864203886251913649139138466314258546445645050360213083721503668045780229353922384
    * y ^ 9 +
    216571649750581385449325444859973129218137730827946251892475484740622551399363293789084498275598124506926100756849566094831950370352
    * y ^ 10 +
    72983915683286694698321936764201604638752550242089148450646759994706477016245183606416212553795649000648960544365236650948564761472
    * y ^ 11 +
    21694558578350130626598404444302398073824706376525669499248803132515357598709608898010769574085820041157613272378890698783838501952
    * y ^ 12 +
    5722946716754165399935294442757867949433179313818494252133388201890912397485628115726370375185133357399293445567203986724093401856
    * y ^ 13 +
    1347076346733966758594906130788047018612439341916662363593115922000990159285827400613900713107398175385260980119823474159762754304
    * y ^ 14 +
    284213199601509371337623091472844715337001958531761239525307791634447094605035032031567228222294250149340479517946338246801285120
    * y ^ 15 +
    53935903625536322916750221741521953809801430196841523669829486991851400481604709475007894502173973124714286630934446107951723520
    * y ^ 16 +
    9227107311745507483203948265899336067430006354604859629149012623871006039317707908317663704457615880989636850257307025386229760
    * y ^ 17 +
    1424452878359089728315760933680781383359541462434604954335308659301434304083516247392386558068751104974047022298046528028405760
    * y ^ 18 +
    198423336685987233102470593331758035058820782104284220544507121823555226108924820196147856022925034327895152360611944767651840
    * y ^ 19 +
    24917080385617848982596498755929966141062036957769876467660668980232199836014245732647472632273849942271973352046469236899840
    * y ^ 20 +
    2816558054771978613566206217678352938415107549785027683020650101702502649696164218590155869823809202987359580332325886033920
    * y ^ 21 +
    286093330294796669491739444027797586676015117547329525244738098309883898047876323648453346756038793983224842812824889917440
    * y ^ 22 +
    26069196878202873220564304787764968473787760492462625333867750000888677039446079807431753845167298203892507418175151800320
    * y ^ 23 +
    2127890024193691812966669787843423559891953992743118032339770528641488779962122924440437290803258858426480690067919339520
    * y ^ 24 +
    155417855519553682084053419800205582908814816446022542733936388642508553276212085234005050989478802046184513242980679680
    * y ^ 25 +
    10149466839477506983360871961700964392913277296424958166319505529216516009272428001548089686504966268457146757636161536
    * y ^ 26 +
    592121383320753985449460832967191492412435024800772330342204582499318066010168821554172966195875132419278818206810112
    * y ^ 27 +
    30807635999379538593502520719881857394058799553607393405722278942865380605901923486858587696398002902002086478610432
    * y ^ 28 +
    1423888315583522778968092734943856757739073606090544236217581001222242587792778721594171863043495093051394092957696
    * y ^ 29 +
    57998828107050313141022238391885638829731515778391979004075856238921263908764876638119940986087377934604302286848
    * y ^ 30 +
    2053472556023958831461274006076783452365196876863914423937027330189853978549412521191451358298340191652164927488
    * y ^ 31 +
    61851152032464196174950243411935375621337091612344501672813742666357245512099706499773318801048140220735684608
    * y ^ 32 +
    1536052325121049967626785233128362875651511199328856826374738716652679256679559976565878800982101825761050624
    * y ^ 33 +
    30067577592267014357281493395549353486560831573074348637029270373425160971055928629084746334430909406642176
    * y ^ 34 +
    433159212106121124094723968864179417076841299698243923427767823991517686065304022464488139518902272000000 *
    y ^ 35 +
    4073516581069846965583131205329289950356065089526679907073517828240794578432119736625004544000000000000 * y
    ^ 36 +
    18877488643277064294730791472777668253456501170692870346830299084553029781110652928000000000000000000 * y ^
    37 + 3228557520909093912184001725739401831316327033391842850409459885697662976000000000000000000000000 * y
    ^ 38) (by ring)
  positivity

end Special
end Verif

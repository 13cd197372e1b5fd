import Mathlib.Data.Real.Basic
import Mathlib.Tactic.Ring
import Mathlib.Tactic.Positivity

/-!
# The polynomial inequality behind the error bound of `ln_gamma`
-/

namespace Verif
namespace Special

set_option maxRecDepth 100000

/-- the numerator of the sum of `ln_gamma` in the variable `y = z - ½`, times a number that makes the coefficients integers -/
noncomputable def dkN (y : ℝ) : ℝ :=
  3118920233312364586690013176830969825 + 2851289946751320727542039681177259890 * y +
  1173002775630529768235425867478145104 * y ^ 2 + 285970246569485639809900996542217568 * y ^ 3 +
  45753025639072491519169971369030496 * y ^ 4 + 5019607258856755712160244062080192 * y ^ 5 +
  382441339339059653722233996818176 * y ^ 6 + 19980699910072698382042112763392 * y ^ 7 +
  685067512342363151163310010624 * y ^ 8 + 13919373073297546416317649408 * y ^ 9 + 127269933639041825559552000
  * y ^ 10

/-- its derivative -/
noncomputable def dkN' (y : ℝ) : ℝ :=
  2851289946751320727542039681177259890 + 2346005551261059536470851734956290208 * y +
  857910739708456919429702989626652704 * y ^ 2 + 183012102556289966076679885476121984 * y ^ 3 +
  25098036294283778560801220310400960 * y ^ 4 + 2294648036034357922333403980909056 * y ^ 5 +
  139864899370508888674294789343744 * y ^ 6 + 5480540098738905209306480084992 * y ^ 7 +
  125274357659677917746858844672 * y ^ 8 + 1272699336390418255595520000 * y ^ 9

/-- its second derivative -/
noncomputable def dkN'' (y : ℝ) : ℝ :=
  2346005551261059536470851734956290208 + 1715821479416913838859405979253305408 * y +
  549036307668869898230039656428365952 * y ^ 2 + 100392145177135114243204881241603840 * y ^ 3 +
  11473240180171789611667019904545280 * y ^ 4 + 839189396223053332045768736062464 * y ^ 5 +
  38363780691172336465145360594944 * y ^ 6 + 1002194861277423341974870757376 * y ^ 7 +
  11454294027513764300359680000 * y ^ 8

theorem dkN_shift (y : ℝ) : dkN (y + 1) =
    7480358956315034451160553618756496675 + 6265756496593971529864628519251428210 * y +
    2361803645265109854010393230555602736 * y ^ 2 + 527566121278398266541382659711608928 * y ^ 3 +
    77336741813851974439389430808911904 * y ^ 4 + 7773999686724325166370174802544832 * y ^ 5 +
    542684083079375903311439654929664 * y ^ 6 + 25977609831487000281403174467072 * y ^ 7 +
    816069017015797951060348695296 * y ^ 8 + 15192072409687964671913169408 * y ^ 9 +
    127269933639041825559552000 * y ^ 10 := by
  unfold dkN; ring

theorem dkN_shift' (y : ℝ) : dkN' (y + 1) =
    6265756496593971529864628519251428210 + 4723607290530219708020786461111205472 * y +
    1582698363835194799624147979134826784 * y ^ 2 + 309346967255407897757557723235647616 * y ^ 3 +
    38869998433621625831850874012724160 * y ^ 4 + 3256104498476255419868637929577984 * y ^ 5 +
    181843268820409001969822221269504 * y ^ 6 + 6528552136126383608482789562368 * y ^ 7 +
    136728651687191682047218524672 * y ^ 8 + 1272699336390418255595520000 * y ^ 9 := by
  unfold dkN'; ring

theorem dkN_shift'' (y : ℝ) : dkN'' (y + 1) =
    4723607290530219708020786461111205472 + 3165396727670389599248295958269653568 * y +
    928040901766223693272673169706942848 * y ^ 2 + 155479993734486503327403496050896640 * y ^ 3 +
    16280522492381277099343189647889920 * y ^ 4 + 1091059612922454011818933327617024 * y ^ 5 +
    45699864952884685259379526936576 * y ^ 6 + 1093829213497533456377748197376 * y ^ 7 +
    11454294027513764300359680000 * y ^ 8 := by
  unfold dkN''; ring

theorem dkN_v0 (y : ℝ) : dkN' y ^ 2 - dkN'' y * dkN y =
    812850179153903082179850631963702238442079936500386910093455783811838500 +
    1337631714428081793549668799100136153564864826393296228776276171520843520 * y +
    1039470574462303033079062130171195321722590383666452427026143220788943232 * y ^ 2 +
    506839910883844263345612468064842420282136523617490631115820611613398528 * y ^ 3 +
    173766119827518477391095359448366323866180248033611491055587134844522240 * y ^ 4 +
    44482512228511543859949697147719352481323527474948365671685939634522112 * y ^ 5 +
    8811517604284766122822652137162779834396734046066331004933175913916416 * y ^ 6 +
    1381040283381416545809347855214762358430287298494466497279232925523968 * y ^ 7 +
    173613936952523562282037687717845233200396043350203810580365078288384 * y ^ 8 +
    17636837777716543540726808307003445699095942172645474966833770168320 * y ^ 9 +
    1451259140392858506884598545344100804843710512367877129075156484096 * y ^ 10 +
    96499950933363269215150280896500568180045933363043663448032542720 * y ^ 11 +
    5146734719807503155834961121004267668076052434287131354964361216 * y ^ 12 +
    217185408609723176690267725209748222554026251614906294256271360 * y ^ 13 +
    7091965767502486607447057281021896848079971702785280497418240 * y ^ 14 +
    172914903367960077345187105143380545482996090167519160041472 * y ^ 15 +
    2964379476459831392722860564469115506932295787527151026176 * y ^ 16 +
    31887318372041599215726117936407018647353533307813888000 * y ^ 17 +
    161976360084861100546981959145168878378984407040000000 * y ^ 18 := by
  unfold dkN dkN' dkN''; ring

theorem dkN_v1 (y : ℝ) : dkN' (y + 1) ^ 2 - dkN'' (y + 1) * dkN (y + 1) =
    3925426372776837947918337921301064571566120515464051543170816683973998500 +
    5918669305878870793121118334588065757882487522441268892473540269173278720 * y +
    4214153846221469249835119636860819217227640591171574761502260867574340992 * y ^ 2 +
    1882691419972998078665603009567904913054030069273939349475239874224988672 * y ^ 3 +
    591402391764468306793604066744791040231364794091360800874885954527543040 * y ^ 4 +
    138712756577318711909825987621934293279550378610899756935562616220571648 * y ^ 5 +
    25175982052558208274935352667806308774850544986045710151441720416659456 * y ^ 6 +
    3615348410585533094109998911311464479050142671468462644308189530365952 * y ^ 7 +
    416424230295276770186758906793814167647949217257052747034365859190784 * y ^ 8 +
    38759593938608818752526870142456789735032565924934165104512513966080 * y ^ 9 +
    2922200806200791232664264249660703667285678184583214393450207543296 * y ^ 10 +
    178032082026820917768672577252259876359109455011472342155431116800 * y ^ 11 +
    8699785693911444271190356967762439170417499180724535381146402816 * y ^ 12 +
    336366326346389968991738889802327044898073183110177053372579840 * y ^ 13 +
    10063593879351915497185974650900639880604828644736181865021440 * y ^ 14 +
    224813822999744283780137963492900205934710154573960905228288 * y ^ 15 +
    3531246271877522327773892809137245662329290468037107122176 * y ^ 16 +
    34802892853569099025571793201020058458175252634533888000 * y ^ 17 +
    161976360084861100546981959145168878378984407040000000 * y ^ 18 := by
  rw [dkN_shift, dkN_shift', dkN_shift'']; ring

theorem dkN_p (y : ℝ) : dkN y ^ 2 =
    9727663421765254748097900827527459973516757996929602132907339250060530625 +
    17785891811925657684707027795897197517017957851131770899374468169545638500 * y +
    15446858541736395697597207180399963682189586321132064308888166713393785700 * y ^ 2 +
    8472978819635238435800621057252910487707462598175327225117781016263928320 * y ^ 3 +
    3292103764665993647089564733884445288358249706931003750528379580760232256 * y ^ 4 +
    963109579309652813683361491918442738450340500345275242893073689703597824 * y ^ 5 +
    220126153549541854857060301464355711800280322382320557670416161371293952 * y ^ 6 +
    40249573251649055467834995877340880711711850533353880993770532527081472 * y ^ 7 +
    5979680390661415805873877443303216305982635532296896263590500168388096 * y ^ 8 +
    728926439400719498880477980350260436057969385263819737079894111737856 * y ^ 9 +
    73307267614942625257381487919559658897698630294730944890469785548800 * y ^ 10 +
    6092964140918052963470432097008922826346751986518149648236055986176 * y ^ 11 +
    417799362630677102104854202772444790288739898861074520104167424000 * y ^ 12 +
    23506928679413468955364737796582824504005608011035719489981710336 * y ^ 13 +
    1074610184120820959308138128694707763170010955195513344758185984 * y ^ 14 +
    39300634291786982313765596888270908143955631979672865204600832 * y ^ 15 +
    1122901696851779934569295666491065029058766876322484452917248 * y ^ 16 +
    24157305272611570962850529890313650370352756422321415389184 * y ^ 17 +
    368125940421792832537663621255987170273216328331763646464 * y ^ 18 +
    3543035374671288801747346437378557627483725923090432000 * y ^ 19 +
    16197636008486110054698195914516887837898440704000000 * y ^ 20 := by
  unfold dkN; ring

theorem dkN_q (y : ℝ) : dkN (y + 1) ^ 2 =
    55955770115322551492474030417384770215348752529879707330924727519286055625 +
    93740215454771655176084100964382327076975229646964633671413285419732403500 * y +
    74593982576442281971540683015784379462656760074451515542344099565593609700 * y ^ 2 +
    37489740988704871960525511847873073919845912127742548172201461204631793920 * y ^ 3 +
    13346331340912516982294869080019473817131624069954227622051848297712641856 * y ^ 4 +
    3577466177964456590667914502759978927602177152354903370595548404751344896 * y ^ 5 +
    749173331344347825606808968108394803562898377707831974414587601958803712 * y ^ 6 +
    125511107749915003429009962293396481663061022560047345251694234468292608 * y ^ 7 +
    17084743582256175622480669312587178026904848726928359320681041245830656 * y ^ 8 +
    1908196977836213996261014367954529989657868502062610725672373460895744 * y ^ 9 +
    175830795746868690863993677030710229227455399773426376132043824445440 * y ^ 10 +
    13390116193480781858375799255700369796602469659049337239839253889024 * y ^ 11 +
    841260931770947799744472602838467199844445357627697527161656197120 * y ^ 12 +
    43367608682862470711114652257065728994105046752504288639943245824 * y ^ 13 +
    1816463161318614207153053611250603276351938354089773598983389184 * y ^ 14 +
    60866829659135719353218593887776228549399987097289621410152448 * y ^ 15 +
    1593410834195228538368125400135588779069172182101393861050368 * y ^ 16 +
    31407896554322306499089627257055702041705571687544184897536 * y ^ 17 +
    438521163382159680681255860789937973884607824604241854464 * y ^ 18 +
    3866988094841011002841310355668895384241694737170432000 * y ^ 19 +
    16197636008486110054698195914516887837898440704000000 * y ^ 20 := by
  rw [dkN_shift]; ring

theorem dkN_pq (y : ℝ) : dkN y ^ 2 * dkN (y + 1) ^ 2 =

    544318898187528554533953788763951821935939593324920613701566317760694866221375639959908667020372409027828068637431609860231918330942865750766015625
    +
    1907096538551886037753070712486424187316364196407539469840167127069251190362886986898795459733300012441314613706805172367212877240805029803748750000
    * y +
    3257219351863130793331607138781514549720123927851393715133980574582331931951441095838568153596932986603271146483834537657482386491549918777811375000
    * y ^ 2 +
    3613511988857803971413000336986939232731430911537900344146097052825607706980876980128608906875706155292834721931108842758978375603699528572605000000
    * y ^ 3 +
    2927330854952789292564874973718863845292169766542426811647630297209936680664576600393680427951511567625819684555839670699808733064308172642456410000
    * y ^ 4 +
    1845802806873837372508479829187902329426872648504972789873360632195894756936580373875159546495860172580783278641288161373033685185863885880790400000
    * y ^ 5 +
    942895364815870413035669409586771076316543195646574687862996692547617145367796139159355776333178663588146016766337750396071203581137599029784396800
    * y ^ 6 +
    401038607944374169448523711478444486239424079931132101363509011515039469796785306405286715604561609529971037356282281802865532637428953729310269440
    * y ^ 7 +
    144854615321548269242053216363797577201803030116424435640698178085588394708915993474590641325942973983187386920071715324182125748889593177092084736
    * y ^ 8 +
    45096453845692973311157960188348593890569920112382639520758119678696541830856163106529687394192192006157170585593224327286502517856264223673958400
    * y ^ 9 +
    12240158792045968462016628029662692280060831625579671403365654744089482178411984439811685592393931043522263450701440107722304436304659938708594688
    * y ^ 10 +
    2922664464542037357841615759044563111432396681568853251868707835483221733506442589895649950362345758922141603195185775152597387653648413751705600
    * y ^ 11 +
    618357188591543981025562272854599909986998116740927338797991388503034624236039264901603866445958476903612349007514767919161016200649871536701440
    * y ^ 12 +
    116594524216785423134571848425432160954944847673770108817647328488420823174558643242202721671005299536605114338657547181747489025848703060541440
    * y ^ 13 +
    19684223924837270611319246887050012025339046953777755864047499048919990474830097920813427768763100695550249130781439728578591856406208295206912
    * y ^ 14 +
    2986655599883189893809296634421172835303616064634493514122972602381051313098022858639805753507896159914952952101471376272759684261711257272320
    * y ^ 15 +
    408479505601838786012843052333930101490261608184573775176023685713984135894519268895904104103331898291568324290245846168419961848609936113664
    * y ^ 16 +
    50475197471508717138735745605436949460071386886083899255158264398242714901132727220834541382556002932334708686920406853681837636977741004800
    * y ^ 17 +
    5644937282108153489848440756770147661882459054164225606663314185285953120436584524526531557044018399077822934971139689904412694620452945920
    * y ^ 18 +
    572050392687882704901084988892734404711727617980929486640803353353131969463572154375556171107127317173190685982881777114075869769367552000
    * y ^ 19 +
    52566612710055275979910143427776001035365138959332285085301438991399514800087237187312572476414171618310257814244129173916407503802859520
    * y ^ 20 +
    4381142843163468292333420683901362721908904055813106600098984134720845387313909886120253594964412737928360509986482612884747699250790400
    * y ^ 21 +
    331104712396832987662468719278738620352965385728878441996517408172416786565984367647033306159528343988952204879346534675511697148477440
    * y ^ 22 +
    22674481463702942931377511924499382411015040888302389908347750693088175184617028707359546059907206766591003981288154794611033138790400
    * y ^ 23 +
    1405344108622308441026005228537913424153983425993562495404105927905765511695191722388963761745578246774938114625263014068569736478720
    * y ^ 24 +
    78695623658554491639370826012315992282985398245632404864880580053559696340780271988573047923483138680285081783280559984815479193600
    * y ^ 25 +
    3972251295698094627684524237478665306625403065895686922403245255353018369959987156633439563079762970254289077376108916811675729920
    * y ^ 26 +
    180197805962359535075493663071712960911140695292970481031958565759545782294898156269313901498174940581712855153521632591856271360
    * y ^ 27 +
    7319200049332243968445234464032359285247761890298981573907775569443043397469859664509995120010792861761077730036538721670529024
    * y ^ 28 +
    264945133019086629719878293083270813308998544383959355341760373920085213182694936546978933777397166619942928451507638291660800
    * y ^ 29 +
    8498000192145472968842870580817501528002877640490438965432343767038463996912221949648769400633967848803001380534004190543872
    * y ^ 30 +
    239786473068784457941694598931957993115293046052097946306033423160445060520354936064322969664938441383035522484573883596800
    * y ^ 31 +
    5898846873921563228326353790429353081091642267807184797855477519966433814488770290475864984203982694328087105920145817600
    * y ^ 32 +
    125075818502147383645249064450335988387634804676986807235320061366494229052554060180964662937389583406001045061039554560
    * y ^ 33 +
    2252179134592718977490729404896373315772249324156895150332717286616000959898177549070155745452472944386597205152104448
    * y ^ 34 +
    33765785634364877273235886190836414731557358934615285006890204599557223312425038078943640871717314314776038426542080
    * y ^ 35 +
    410124157756714607026678909294080142703132830747968478392654423045359718107982094775327833458897214209987283255296
    * y ^ 36 +
    3877259537348966124473598389781074934465405798376647780357999109151536896738405187426126563104580790067920896000
    * y ^ 37 +
    26766651788170368962136200299624164960075684264103988246666651565033279585556373331753422427918157479936000000
    * y ^ 38 +
    120024862973499604427776130423979752663107197520829394228404068913201797731168553041412083475808256000000000
    * y ^ 39 +
    262363412263405843515896998420513147758386345384960121127375620361975491626133830194604015616000000000000 *
    y ^ 40 := by
  rw [dkN_q, dkN_p y]; ring

theorem dkN_x (y : ℝ) : (dkN' y ^ 2 - dkN'' y * dkN y) * dkN (y + 1) ^ 2
      - (dkN' (y + 1) ^ 2 - dkN'' (y + 1) * dkN (y + 1)) * dkN y ^ 2 =

    7298431221640644237803434927152917452055675162113860244844837017148654084726939821945487860921611542512415064172394209605728247449343231562500000
    +
    23652931943627905107008396294267347946810973026838420673076918017144287538812323106780182709090237420244407583518964622736796201821914457712500000
    * y +
    37289805652151226218365594578747817605130429780750921542632655197540660091568713938247293589627757159742159174256086683558855654797128266560000000
    * y ^ 2 +
    38102057740473782581431609211491162415886742424012375703912501044076838743515888338916973464253254019248443283354163112297134790171365902560000000
    * y ^ 3 +
    28363365486724441263095674274733652331024650637234308807914415299988719667345505427880362665483038949386289007743738419814201999504015094412800000
    * y ^ 4 +
    16393473384312451575282583291165409328574029768899010754531356412464490162924259613231877967630807063893302785852798983103896494269450449282560000
    * y ^ 5 +
    7656281000633365094445639846464617185509321520095246142748156970240604063558440380274638924516845456924095922441414780995611436167824826478592000
    * y ^ 6 +
    2968988695244375456661055835653907620976477045807416315821765296256267602430687130661246429949728490087117444021700268909130274206078981869568000
    * y ^ 7 +
    974867746283446323228253063168015180196070185628036955145874019574125736944866011488370453153108495439164029573168757280286540643208645030543360
    * y ^ 8 +
    275033718726657869588648232322200779281086009898393935294068084096124724051270330189246751537424472348648888853287614732373023564717112983257088
    * y ^ 9 +
    67422923418312828058524107326762506751235549280674894754183247456891727170077785780396668801324551276743343817803999541029281904098694033571840
    * y ^ 10 +
    14488423036327144575261862647654138231224369600978502840267976925103457825493814928308737242357419981267442125070831864057948499825310695948288
    * y ^ 11 +
    2748112635983567859319971279266321272375515841768053164619011119673357017643427988614386571502493789501867899078672667390793869484026300989440
    * y ^ 12 +
    462627388493052323060444879493883140950156969948787986383359390063057893819173738643777311505118063123640963430933042963875612196334260453376
    * y ^ 13 +
    69421428202269730390299864669238130346640073720639154865142689524911172322057932854632387440277296911252210456030399741810354625363050496000
    * y ^ 14 +
    9317254511341220752974004781241721131122616573899178748373479091666083832109195164603070514914967152623965377374328668854357029079153115136
    * y ^ 15 +
    1121314226535540003635371952783011173316918529064003543146528171002289449276135184247821894530152271694058467767669120859317741277455319040
    * y ^ 16 +
    121230868303748081423151084139096809050399025688696137176449434022267611406002183187116859233007372875488778898181403066650183603746504704
    * y ^ 17 +
    11788676476880141406120943566320461618027201966565088389613864040675206519397553463573675468525225263575742207992795669893592763408056320
    * y ^ 18 +
    1031663874098882574044467636672398170372773137867925654014997189179189496318400364483843034809298834650486075230950821975317768533180416
    * y ^ 19 +
    81251752204694896394314976001424643540445308166343859590200345568849459777323694067805172165042970548904678791916528033387369956638720
    * y ^ 20 +
    5755634305094536308588442503056739089877132172645062707385316355366998254451102167484343053221882915355998758893994165272659282100224
    * y ^ 21 +
    366268990057632526608942236648168983394176239336583635640672899677203104353783176163412884036509844844334429038851911471111329546240
    * y ^ 22 +
    20900277663367017648315468843100957874020826324528074759295540299301654403965654056932186166026917062693073344143426875070408032256
    * y ^ 23 +
    1066684921281367241757656557687186990841521846469300529807441112201057678165534724964432026357611947022075575822355000745734963200
    * y ^ 24 +
    48527244240508057104650920643720903730104907126737246379111836933409460056325695240803918201143029866371311298011903814558285824
    * y ^ 25 +
    1959379141409799021590977241844626567828053573369743699663509489473691399953734038746564968442147930586171673610164379173519360
    * y ^ 26 +
    69831468901119146622450339312560218064697936501916982416961828507814019364580639815973021195238181490234602551122743846240256
    * y ^ 27 +
    2181603116001012726156549101106676973415752554707191692096884601167878098172958254080810451155291851642939266687662209105920
    * y ^ 28 +
    59221810342198875202271367835922834640750734571869343533883852791427318898842133128669655550855771779428649408080910483456
    * y ^ 29 +
    1381308414752407641733426899001235663075224263054574101916147543642812024468461338384424713601452763001005371684017930240
    * y ^ 30 +
    27280107296979031675892721569410101142792759863498604479414638408620874223035156062480675665334777661436990496752795648
    * y ^ 31 +
    447347734153638758168236902072260407176370462930146558484254414538828161904773923505413225993587660829361235631800320
    * y ^ 32 +
    5927588251051217530557801485835668887430694879355443925636777157232869385930324595975966338806901629582141269475328
    * y ^ 33 +
    60983823904202788323505687358318834641273085085134039912759463336191865491013374984594399879162814957908656128000
    * y ^ 34 +
    457090549494224549020428345072445971624408921251659365962374606296088670290906470796228495715794679758848000000
    * y ^ 35 +
    2220459965009742681913858412843625424267483154135343793225475274894233258026618231266123544302452736000000000
    * y ^ 36 +
    5247268245268116870317939968410262955167726907699202422547512407239509832522676603892080312320000000000000
    * y ^ 37 := by
  rw [dkN_v1, dkN_v0 y, dkN_q, dkN_p y]; ring

theorem dk_upper {y : ℝ} (hy : 0 ≤ y) :
    0 ≤ (y + (10900511 / 1000000) + 1) ^ 2 * (y + (10900511 / 1000000)) ^ 2 * (y + (21 / 2)) ^ 2
        * (dkN y ^ 2 * dkN (y + 1) ^ 2)
      - 500000000000000 * (y + 20) ^ 4 * (dkN y ^ 2 * dkN (y + 1) ^ 2
        * ((y + (10900511 / 1000000) + 1 + (10900511 / 1000000)) * (y + (10900511 / 1000000)) ^ 2 * (y + (21 / 2)) ^ 2 - (y + (10900511 / 1000000) + (10900511 / 1000000)) * (y + (10900511 / 1000000) + 1) ^ 2 * (y + (21 / 2)) ^ 2
        + (y + (10900511 / 1000000) + 1) ^ 2 * (y + (10900511 / 1000000)) ^ 2)
      + (y + (10900511 / 1000000) + 1) ^ 2 * (y + (10900511 / 1000000)) ^ 2 * (y + (21 / 2)) ^ 2
        * ((dkN' y ^ 2 - dkN'' y * dkN y) * dkN (y + 1) ^ 2
        - (dkN' (y + 1) ^ 2 - dkN'' (y + 1) * dkN (y + 1)) * dkN y ^ 2)) := by
  rw [dkN_x y, dkN_pq y]
  refine le_of_le_of_eq (?_ : 0 ≤

    (19626687587324114594324236937749109156685237547509874557071293094219700831289026980045732481710048845901088703524325981262357349765917483494610346479675476899824208310833441
    / 10240000000000000000) +
    (68795525499091884787145658123216380598680302532261021902015204746429217821966367273448724828837908463101680423315124436441162579275453337841962449807078257817649399578202381
    / 12800000000000000000) * y +
    (620552491044713176197144531787190355024893791043137413734367422706756690831991753468018936912203186341224248220982421713623468416766560328953880586740102842125163247194976887
    / 64000000000000000000) * y ^ 2 +
    (100651358987375212367588528331090525000848180188189916206853932377503925466799756639766176517867596923939920239914887485142903209318171630149086843406482433692068695070118951
    / 8000000000000000000) * y ^ 3 +
    (4783632777542391605395291647512420097339013835449069032868997147596181585951449741479618322627180470689213655482166878263249317579786420881474641939683779506349657987737498071
    / 400000000000000000000) * y ^ 4 +
    (867994136463893282675519558593125036431255380849951271241753706805898944429868966522789276206179740795645075418614928332766341809462483751840927097491437453458008464987226561
    / 100000000000000000000) * y ^ 5 +
    (12578703227043147815009694803009281404516794637943754711619511702224734280424910553860761389730595485427606676785549224439637200789029752674035645893839206689092501957389220913
    / 2500000000000000000000) * y ^ 6 +
    (236017427649608375973932644454635657167765916885075475628261830510830673803360469069810036088237944130049888838991732271401741661722242970085225385319692840251592895321262029
    / 97656250000000000000) * y ^ 7 +
    (3859084695787914297831959843426825953874642392257315686383222154292132322301011728507235261672204047951280249851410144271947046291576407711239787014490908533719749442276794449
    / 3906250000000000000000) * y ^ 8 +
    (341615930057500572646052927626605718475623885296627231828559096620497726715602914090784634779646297578027528229908814817858488423349170115821113415886270528275830676641502789
    / 976562500000000000000) * y ^ 9 +
    (105994608312810738708778474987936707128712516000655215798484308972735923344074125565986616488428032905576130821365425813811560872871236981424087755187499810483243935606350367
    / 976562500000000000000) * y ^ 10 +
    (3631502939739761352426487858850703513797920115071199678353822578102941897590456935544139788249016991640187233569869860120406234014120608966109123304125826439708232356852729
    / 122070312500000000000) * y ^ 11 +
    (1770638237978996913287301169780523514226068434459583959030926509615415306095409737803224413031927868728305535485691994902864102296679261522043479306940137838060997751238883
    / 244140625000000000000) * y ^ 12 +
    (3865734965436336562209981698805117201794283306115807631393547587294738472552526116290963680142482638125540622516764956377298446995040835191563999043540075552152940707841
    / 2441406250000000000) * y ^ 13 +
    (19032099814892435660730576609040407771303496764086236183504708738197654869264601370431253345068209970295598384273053429500342768383442514065609146144422176269855833505197
    / 61035156250000000000) * y ^ 14 +
    (212842196883373768414694178083716566476693237654046971503562206873835699086826616558504798447162430504138508845517277547547666934849939051594543463025531457920149655583
    / 3814697265625000000) * y ^ 15 +
    (278702727842837188587783493788889138329065504274609703351231915174484290850879910188963614160018341404130031388006181759899304726281776541728046802523875308446536609231
    / 30517578125000000000) * y ^ 16 +
    (10489515097979744014606666362014463702995107822604944057242574218048087042939305761816514021328722253026469662738180411200839192284322061456476141050729895672503528367
    / 7629394531250000000) * y ^ 17 +
    (1457935670550258545149414120768731528864685191341895455495653859195269793310367517611970475057553651860540285386263722022669518402967038317338626564520877921184382657
    / 7629394531250000000) * y ^ 18 +
    (4686511977910084880909173583966396511140514196516632958719909295234274509636459400944019315979629100952338812838469260207789692398905004245684174299509954336583609
    / 190734863281250000) * y ^ 19 +
    (1785220192600767448798423659024006992694075825104660984662481097028734272989149960796888938735075410990653993669832674686357103645666756205205433752037726141757
    / 610351562500000) * y ^ 20 +
    (30747161964085274996097612116257366077383928803745907428208441353120734536050809861025051749012386307416317725303318963837647907994941605978938989230933947089107
    / 95367431640625000) * y ^ 21 +
    (3138890976707657536065378688564012023710688402920373184705956958406853538748698596214084092694238779993966466437628832317614823315019306572176493072226280443363
    / 95367431640625000) * y ^ 22 +
    (37111230416678940930135805343211483061809354274109244056058071477286219217656355094150865098480377129493539840539084646198268599946350356633936617373720730548
    / 11920928955078125) * y ^ 23 +
    (3253493825584050590653281799971063606589488465252591991277575402419412680411498222118619764966548889555179162867596785767307700654378063546110096628887265769
    / 11920928955078125) * y ^ 24 +
    (264351977882738480843162865138654788086092035004521772825571532442053578878577632804026902562839481918688225207097333821421876843021611232320385951210531284
    / 11920928955078125) * y ^ 25 +
    (795334110408967465630745985802787569084890877867099558566643669964521062539365651837746190615002087389409407663012208496977571150091601659327595348206844
    / 476837158203125) * y ^ 26 +
    (1380695651055155627316988149831122758510233805312096071502007974796690093716197140019253411065903001077099968757564538237658934021298844015965322464397472
    / 11920928955078125) * y ^ 27 +
    (440670198732205196371034932674909884953973344295688559349685237189948019484019271396309651953231887385701686665483242746579089372960123191037070443400176
    / 59604644775390625) * y ^ 28 +
    (25713687202688263546206729796801185732546930021886443051865447214903243195688970341412715904645854884058559277009186290259027578105505785398907613779264
    / 59604644775390625) * y ^ 29 +
    (1362793127919538915029411034183358835079707100443941425310167440176610283195779667537369510343668324501490865693811107854875937784372787420266833589312
    / 59604644775390625) * y ^ 30 +
    (65160187145022932207702342875922956852946686659756565284189806685909012346633482390052380027203211667055553116475365936343844492432453385329720230912
    / 59604644775390625) * y ^ 31 +
    (2792122452276836795977240259830881638896595344665625586296052676721887342462349913096582036087924501666549170749794345366924980494922385459199236672
    / 59604644775390625) * y ^ 32 +
    (21311092149534488732204415417755857264210014838218578948030032592842850210808397497962454818628541228465131625241049539143730200129974738674281728
    / 11920928955078125) * y ^ 33 +
    (3601592666252708722119720676373074628315130787236292615673800742735367957427472919287997012875554270942146922627746997006957974022671852498372352
    / 59604644775390625) * y ^ 34 +
    (107332392870807381661923943826841751016635761117519598754432288646839222573755438062566091294596043652913647572597025580999113330591849362290688
    / 59604644775390625) * y ^ 35 +
    (2811747309325736148395587694236783130002742778851167144057565179222182518700438527287628748674046085744868077517669094112930973272909136346112
    / 59604644775390625) * y ^ 36 +
    (64678527519373656417327284138683318644856028468111777838583258024084805177968385461728286426484165236578585749555559556480400159712833540096
    / 59604644775390625) * y ^ 37 +
    (1307245341062723955629362161247148326131702715808896844539509585314739368648578942618689015982150219996221556199097744651524877321093124096
    / 59604644775390625) * y ^ 38 +
    (185766764831678683949344143538742471694938943264494791732156613804448286804919548720842683317398501761682881024531801631534108245229568
    / 476837158203125) * y ^ 39 +
    (23074453931803700889288491715371664775456470176524529963300275394265067997609270989097309327771047305070154952925672454781721903104
    / 3814697265625) * y ^ 40 +
    (2456936196696246404963128871837010713100855789418796018499607930657212314074554626366940848411057499791445850339439295093276672
    / 30517578125) * y ^ 41 +
    (215017529849403365729519252641910441574545287376558911636367161895551553041228397836277210315421410298702743565228557991936
    / 244140625) * y ^ 42 +
    (114957155654554363745610868062812664169682556375608068427389962005548746159197143035992558761388648791080060170797056
    / 15625) * y ^ 43 +
    41372167098286458717890080205246040966496789310972764895165864024587709378781285067429292905579041995637129216
    * y ^ 44 +
    119435183022419202155978352143686919152422917322460410655277100556814626318477650944187732083399983104000000
    * y ^ 45 +
    38253815412150484713413306530967345064062835688115561455060250609743921929209050776905711616000000000000 *
    y ^ 46) (by ring)
  positivity

theorem dk_lower {y : ℝ} (hy : 0 ≤ y) :
    0 ≤ (y + (10900511 / 1000000) + 1) ^ 2 * (y + (10900511 / 1000000)) ^ 2 * (y + (21 / 2)) ^ 2
        * (dkN y ^ 2 * dkN (y + 1) ^ 2)
      + 500000000000000 * (y + 20) ^ 4 * (dkN y ^ 2 * dkN (y + 1) ^ 2
        * ((y + (10900511 / 1000000) + 1 + (10900511 / 1000000)) * (y + (10900511 / 1000000)) ^ 2 * (y + (21 / 2)) ^ 2 - (y + (10900511 / 1000000) + (10900511 / 1000000)) * (y + (10900511 / 1000000) + 1) ^ 2 * (y + (21 / 2)) ^ 2
        + (y + (10900511 / 1000000) + 1) ^ 2 * (y + (10900511 / 1000000)) ^ 2)
      + (y + (10900511 / 1000000) + 1) ^ 2 * (y + (10900511 / 1000000)) ^ 2 * (y + (21 / 2)) ^ 2
        * ((dkN' y ^ 2 - dkN'' y * dkN y) * dkN (y + 1) ^ 2
        - (dkN' (y + 1) ^ 2 - dkN'' (y + 1) * dkN (y + 1)) * dkN y ^ 2)) := by
  rw [dkN_x y, dkN_pq y]
  refine le_of_le_of_eq (?_ : 0 ≤

    (1055044050555627440958257034644182690259057657001250737703501540382958771557120389710403665880512452613803757522694337276586119473787723262365443284284116899824208310833441
    / 10240000000000000000) +
    (35793339238263684471320349871721181658153322054345660004377813163857251555358767148033255385538002149813467103788724951511180005189458780256833660979882257817649399578202381
    / 12800000000000000000) * y +
    (414230841565886777101847016163069720484383067890400897779127406453050111940350004718141052573600862034322875980833873953592688542825050815741519938909060022125163247194976887
    / 64000000000000000000) * y ^ 2 +
    (66182062590333479268124868892123461101137446986556577782118257828138817581721113191962907420277363752140102547188567526654318774982251337976325881521280201942068695070118951
    / 8000000000000000000) * y ^ 3 +
    (3101962118353152080044582136070131536826350939187830132683328360760415047795582296501575902809872274571669859520881039453110015112287678725013312059739857139005907987737498071
    / 400000000000000000000) * y ^ 4 +
    (588160275353212513929138252566507601777126472164304567154937191977083984069201707017744301635443386838075254211620632019788286933854227313380427350629500582895508464987226561
    / 100000000000000000000) * y ^ 5 +
    (9294603905227385210268660951725946580501646589663938336938538989581306749718212498389758224665560659798511978964933512318342251214103945301945441526680571310030001957389220913
    / 2500000000000000000000) * y ^ 6 +
    (193273363027620706747026533266615258170563116134963847709927096416715822657642157271550233714509161844870864233069658545829625134856140200972491937794505531491827270321262029
    / 97656250000000000000) * y ^ 7 +
    (3500986981351704773214920854996262132540929335189406909626601731103719006392672988242463423163115548556312010570963956993621507340764836032219460109550789101571311942276794449
    / 3906250000000000000000) * y ^ 8 +
    (341413981084597713812610841140013060503414589515490312969473887282900741836530985344486944094492519235520069680931033494599899431430135515719848484661361828775830676641502789
    / 976562500000000000000) * y ^ 9 +
    (116182213047441776061450164289594533831869147201855550428394710629480583080090908588601722351738775957620765460102481503071286067432459696755801392382335128708243935606350367
    / 976562500000000000000) * y ^ 10 +
    (4358677675872397961485675110983351057142887113690540116784156895080918839556960066866466219380163409753100817812279325880259997916662836624518931035072728487208232356852729
    / 122070312500000000000) * y ^ 11 +
    (2326608544141884213610500950333221517150109606611669791093182000421827710141744466097225425326524769514731783953745096953129839089108488057397215944455745625310997751238883
    / 244140625000000000000) * y ^ 12 +
    (5553749423737801102211348604487082622892696620434310865125918914610892715606085608438041498252619051517573301690166516741497855946265775517433767136600660372152940707841
    / 2441406250000000000) * y ^ 13 +
    (29758167204999268267628480412747236641625500859325777105400541918088941544390545040893816303113938072937021381864800456544237300081528852427030390812588982769855833505197
    / 61035156250000000000) * y ^ 14 +
    (358942843360331491562078423743984604166240871180218087667809719788633408028917629188436269056701678752886285854485036771982211716056995715496592699389739582920149655583
    / 3814697265625000000) * y ^ 15 +
    (500240932842776122604427654219321729221692707814078186228290297161327536398527501682667107666077835392245374233899489967357317205867117917444890569594563808446536609231
    / 30517578125000000000) * y ^ 16 +
    (19712828972133442354568032787457086420842700927385863002620252110915952735249536862905855220846090187636562240800095386261446126470081294789467819996315895672503528367
    / 7629394531250000000) * y ^ 17 +
    (2818373575934257525648416764463728468078809843027889980852052989094007210657998915900613983401146058996113437944209365222924178206767287479022171395814877921184382657
    / 7629394531250000000) * y ^ 18 +
    (9158623217133413803911895995468980105701000211351363708818441101553608749387446189369659572474056471689847718356403244030822409388448246167655290222509954336583609
    / 190734863281250000) * y ^ 19 +
    (3470658107048076950049606394792401825128822487220976234364771590579460066395470293572883966296669392292643489555649140846365854848594148502718868975637726141757
    / 610351562500000) * y ^ 20 +
    (58596639265858943179913720070127313934490004432385331774937232965431147275953054165393514250395795775978825586779439299394343999317751909173457730930933947089107
    / 95367431640625000) * y ^ 21 +
    (5781984803540774503736380465825027730539103452459605881278262467809977296600669205167914605763745012227344873398677275672723059101401071472632017972226280443363
    / 95367431640625000) * y ^ 22 +
    (65125591134293950624288991818634721869360231488563556377969007536154420579417293426146206841795012671353311146503862914249440312344371032910511467373720730548
    / 11920928955078125) * y ^ 23 +
    (5354680452677979613312933874548542521796618443598775206830432794037932727264516957174381325579489980958345978814435293641910255646718960232502671628887265769
    / 11920928955078125) * y ^ 24 +
    (401168661304244274543758787757044182562677589884391726080710879212343212352285792485287067374014233654348766512877192491324385021786654647090785951210531284
    / 11920928955078125) * y ^ 25 +
    (1093596299682645727494951552980774734720477748257631320322083381507720385454531520254539989655004556743380532916703037888669586043249977243039595348206844
    / 476837158203125) * y ^ 26 +
    (1692225213344633985768514625391927943707790572647457748003994965104301845792617116071994871616656778367569985833012693694191747392838494809565322464397472
    / 11920928955078125) * y ^ 27 +
    (475184994979392852203823528044146633291565773002576311434807993129892871250585108527198435944153483120123547246645887664748858797914475387037070443400176
    / 59604644775390625) * y ^ 28 +
    (24219796485155069938583648916200034888947983913395792855423659593733786647911856618308352903284959070860678881693851709074790268100152857398907613779264
    / 59604644775390625) * y ^ 29 +
    (1122575219553990548556228720498990802252004295616644750619370093110224420337638955080860659997498449956696969603354015626249106989198291420266833589312
    / 59604644775390625) * y ^ 30 +
    (47507911397524007598416952051942160967838097022877818052329706273505008288415454933114938712815378459210400650006793357923287409998021385329720230912
    / 59604644775390625) * y ^ 31 +
    (1846348502089103885032728361339963622030239728424606192681969733499850876774274731525467802424578111457003429982462739626640374663562385459199236672
    / 59604644775390625) * y ^ 32 +
    (13253561630329849148149326908468925131916412481757892860672091980438900796156044700819054610806816915391574984152149648762338642497974738674281728
    / 11920928955078125) * y ^ 33 +
    (2201514773221913151032821460191794328876719599757492285650142784009723852379106009007473907032527118254679966350445575278674793990671852498372352
    / 59604644775390625) * y ^ 34 +
    (67389954528738275118682871223962645477318082591887910737111171482609844151804174813633255526439237368520503180225850493287545458591849362290688
    / 59604644775390625) * y ^ 35 +
    (1876321372642010024247670464838946662046699867419777666515473678378864096452427813585611705909989987841664244058788963013260701272909136346112
    / 59604644775390625) * y ^ 36 +
    (46578704218798221038244962394824751008689080278348556212083402848971717542686780079299809881034836257030554519538999012971920159712833540096
    / 59604644775390625) * y ^ 37 +
    (1006437650637175497233045276525067148030801363735178999520057157698386841640182920638899469066319231635942415283749531766020877321093124096
    / 59604644775390625) * y ^ 38 +
    (147595621351648464448795716915823546254237775907669648169348883327838749159871765573219228667425999872325241617745915931438108245229568
    / 476837158203125) * y ^ 39 +
    (17900897900022581956000306345321443552439566032121493385918869939514445832459653038319556757959455922354624306634454284925721903104
    / 3814697265625) * y ^ 40 +
    (1754583310385331130482020257222363633336570584434780587641412109282101665760315898416764599174410950312336410506195647093276672
    / 30517578125) * y ^ 41 +
    (137101055395593095210390120787434886495300037475478311915028207133542736048773394795450255858835269696958338003884557991936
    / 244140625) * y ^ 42 +
    (69069433095783354920966671169930962298027835367251381964760990783278397745598164660996148894388749458290132234797056
    / 15625) * y ^ 43 +
    29118226257736023647392366064857678576603776080793562990521863739148270306642505998064277632767177898606985216
    * y ^ 44 +
    155562421979694997858979681880814480512956575207854999652672638613340144384270248955655525289483567104000000
    * y ^ 45 +
    486473009114661202318380690310058950452709855081804680799690990114207061323058609612302319616000000000000 *
    y ^ 46) (by ring)
  positivity

end Special
end Verif

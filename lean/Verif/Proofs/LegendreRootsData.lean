/-!
GENERATED by `/verif/tools/gen_legendre_roots.py`; do not edit.
Positive roots of the Legendre polynomials, times `10^30`, rounded.  Unverified hints: every entry is checked in
`Verif.Proofs.LegendreCheck`.
-/

namespace GaussQuad.LegendreRoots

/-- row `i` belongs to degree `2 * i + 2` -/
def EVEN_ROOTS : List (List Nat) := [
  [577350269189625764509148780502],
  [339981043584856264802665759103, 861136311594052575223946488893],
  [238619186083196908630501721681, 661209386466264513661399595020, 932469514203152027812301554494],
  [183434642495649804939476142360, 525532409916328985817739049189, 796666477413626739591553936476, 960289856497536231683560868569],
  [148874338981631210884826001130, 433395394129247190799265943166, 679409568299024406234327365115, 865063366688984510732096688423, 973906528517171720077964012084],
  [125233408511468915472441369464, 367831498998180193752691536644, 587317954286617447296702418941, 769902674194304687036893833213, 904117256370474856678465866119, 981560634246719250690549090149],
  [108054948707343662066244650220, 319112368927889760435671824168, 515248636358154091965290718551, 687292904811685470148019803019, 827201315069764993189794742650, 928434883663573517336391139378, 986283808696812338841597266704],
  [95012509837637440185319335425, 281603550779258913230460501460, 458016777657227386342419442984, 617876244402643748446671764049, 755404408355003033895101194847, 865631202387831743880467897712, 944575023073232576077988415535, 989400934991649932596154173450],
  [84775013041735301242261852936, 251886225691505509588972854878, 411751161462842646035931793833, 559770831073947534607871548525, 691687043060353207874891081289, 803704958972523115682417455015, 892602466497555739206060591127, 955823949571397755181195892930, 991565168420930946730016004706],
  [76526521133497333754640409399, 227785851141645078080496195369, 373706088715419560672548177025, 510867001950827098004364050955, 636053680726515025452836696226, 746331906460150792614305070356, 839116971822218823394529061702, 912234428251325905867752441203, 963971927277913791267666131197, 993128599185094924786122388471],
  [69739273319722221213841796119, 207860426688221285478846533920, 341935820892084225158147420427, 469355837986757026406330710966, 587640403506911592958876927639, 694487263186682780050689835762, 787816805979208162004277955408, 865812577720300136536425637019, 926956772187174000520692939259, 970060497835428727123950986765, 994294585482399292073031421161],
  [64056892862605626085043082625, 191118867473616309158639820757, 315042679696163374386793291320, 433793507626045138487084231913, 545421471388839535658375617218, 648093651936975569252495786911, 740124191578554364243828103100, 820001985973902921953949872670, 886415527004401034213154341982, 938274552002732758523649001709, 974728555971309498198391993008, 995187219997021360179997409701],
  [59230093429313207093718575198, 176858820356890183969057748418, 292004839485956895142835382078, 403051755123486306481077377099, 508440714824505717695703064726, 606692293017618063231978746917, 696427260419957264863813913729, 776385948820678856192967247242, 845445942788498018797507061468, 902637861984307074217665599231, 947159066661714250135915283518, 978385445956470991100580354312, 995885701145616929003216959323],
  [55079289884034270426516527342, 164569282133380771281471777891, 272061627635178077676826356126, 376251516089078710221357209556, 475874224955118261034411847667, 569720471811401719308003283356, 656651094038864961219898176507, 735610878013631772028144510293, 805641370917179171447885955425, 865892522574395048942254567380, 915633026392132073869689423330, 954259280628938197254101839705, 981303165370872753694559945808, 996442497573954449950436390483],
  [51471842555317695833025213167, 153869913608583546963794672743, 254636926167889846439805129818, 352704725530878113471037207089, 447033769538089176780609900323, 536624148142019899264169793311, 620526182989242861140477556431, 697850494793315796932292388027, 767777432104826194917977340975, 829565762382768397442898119733, 882560535792052681543116462530, 926200047429274325879324277080, 960021864968307512216871025582, 983668123279747209970032581606, 996893484074649540271630050919],
  [48307665687738316234812570441, 144471961582796493485186373599, 239287362252137074544603209166, 331868602282127649779916805730, 421351276130635345364119436172, 506899908932229390023747474378, 587715757240762329040745476402, 663044266930215200975115168663, 732182118740289680387426665091, 794483795967942406963097298970, 849367613732569970133693004968, 896321155766052123965307243719, 934906075937739689170919134835, 964762255587506430773811928118, 985611511545268335400175044631, 997263861849481563544981128665],
  [45509821953102542749075670852, 136152357259182975894428824331, 225666691616449483868641180934, 313311081339463247458316765651, 398359277758645940631494752932, 480106545190327034194102680507, 557875500669746642736459886216, 631021727080528545317775755519, 698939113216262907933000106576, 761064876629873014187408968979, 816884227900933664591578906587, 865934638334564469263572090671, 907809677718324468800899889019, 942162397405107091631676025461, 968708262533344281764646573056, 987227816406309485049750431100, 997571753790841919243372437455],
  [43018198473708607226968978228, 128736103809384788651993388005, 213500892316865578943226228903, 296684995344028270503239047745, 377672547119689216322736389670, 455863944433420267207217669327, 530680285926245161640709080122, 601567658135980535079944975074, 668001236585521062097191344341, 729489171593556582090260479006, 785576230132206512827768965080, 835847166992475306418820872499, 879929800890397131982427337466, 917497774515659066075867223026, 948272984399507545202474114945, 972027691049697949335605048431, 988586478902212238073395107877, 997830462484085836198828345581],
  [40785147904578239913316432330, 122084025337867419869612381329, 202570453892116703203977781515, 281708809790165261360114071419, 358972440479435013256717621457, 433847169432376484373256162518, 505834717927931103240533716468, 574456021047807081132927500924, 639254415829681707180344869500, 699798680379184355912825840627, 755685903753970680737738096779, 806544167605316815551565375980, 852035021932362188859649711247, 891855739004632216794937031974, 925741332048584396825109562213, 953466330933529595670542153117, 974846328590153507640885540946, 989739454266385571944425891106, 998049930535687619812847076552],
  [38772417506050821933193444025, 116084070675255208483451284408, 192697580701371099715516852065, 268152185007253681141184344809, 341994090825758473007492481179, 413779204371605001524879745804, 483075801686178712908566574245, 549467125095128202075931305530, 612553889667980237952612450231, 671956684614179548379354514961, 727318255189927103280996451755, 778305651426519387694971545506, 824612230833311663196320230666, 865959503212259503820781808355, 902098806968874296728253330868, 932812808278676533360852166845, 957916819213791655804540999453, 977259949983774262663370283713, 990726238699457006453054352221, 998237709710559200349622702421],
  [36948943165351775813095980038, 110645027208519868349122545003, 183736806564854550852755639381, 255825079342879083966414791019, 326516124465411512197156589375, 395423852042975057677093954594, 462171912070421929759075029931, 526395749931192287592867558792, 587744597485109322840711345474, 645883388869247833957496303718, 700494590556171213741569929055, 751279935689480489568472175915, 797962053255487413232705952546, 840285983261816900925439995086, 878020569812172742711985103479, 910959724904127452583847879209, 938923557354988178533173433626, 961759365338204488746927157853, 979342508063748193708982566543, 991577288340860919792361253281, 998399618990062415022868126847],
  [35289236964135359058196704631, 105691901708653247117305848915, 175568014775516785746507749381, 244569456928201251507302434741, 312352466502785812236545163573, 378579352014707132511764672772, 442920174525411483834826593647, 505054391388202317982798352291, 564672453185470768424636819382, 621477345903575847802424699122, 675186070666122365333699038564, 725531053660717002606964936720, 772261479248755899017758549232, 815144539645135010487437635752, 853966595004710378728302241293, 888534238286043202338367910190, 918675259984175774323001086694, 944239509118194099203254653027, 965099650422493139394398050580, 981151833077913966662749005350, 992316392138515808483338003614, 998540200636774224936056720607],
  [33772190016052041519557831891, 101162475305584239515859657009, 168091179467103528606796737428, 234252922206269768626056115574, 299345822701870015483439256578, 363072877020995710123706978515, 425143313282828397322146863429, 485273918388164662772320193708, 543190330261802635270962691029, 598628289712715153177172533600, 651334846201997715106477155817, 701069512020405697512122089427, 747605359615666054000336505268, 790730057075274255189144147420, 830246837066066053032385304791, 865975394866858062915888776817, 897752711533941965701319951320, 925433798806753950977491357699, 948892363446089795622213539437, 968021391853991942737748066372, 982733669804166863477979579659, 992962348906174364073095444666, 998663042133817981128268417391],
  [32380170962869362033322243152, 97004699209462698930053955854, 161222356068891718056437390783, 224763790394689061224865440175, 287362487355455576735886461317, 348755886292160738159817937270, 408686481990716729916225495815, 466902904750958404544928861651, 523160974722233033678225869138, 577224726083972703817809238540, 628867396776513623995164933070, 677872379632663905211851280676, 724034130923814654674482233494, 767159032515740339253855437523, 807066204029442627082553043025, 843588261624393530711089844520, 876572020274247885905693554805, 905879136715569672822074835671, 931386690706554333114174380102, 952987703160430860722960666026, 970591592546247250461411983801, 984124583722826857744583600027, 993530172266350757547928750849, 998771007252426118600541491563],
  [31098338327188876112328989666, 93174701560086140854450377640, 154890589998145902071628620941, 216007236876041756847284532617, 276288193779531990327645278521, 335500245419437356836988257291, 393414311897565127394229253824, 449806334974038789147131467778, 504458144907464201651459131849, 557158304514650054315522909626, 607702927184950239180381796392, 655896465685439360781624864004, 701552468706822251089546257884, 744494302226068538260536252682, 784555832900399263905305196341, 821582070859335948356254110874, 855429769429946084611362643935, 885967979523613048637540982467, 913078556655791893089735642772, 936656618944877933780874947272, 956610955242807942997745644157, 972864385106692073713344104606, 985354084048005882309009625632, 994031969432090712585108200421, 998866404420071050185459444974],
  [29914109797338766043680776071, 89635244648900565488854691122, 149035508606949180488634040018, 207902264156366059686466128122, 266024783605001827472971730599, 323195003434807825501099066601, 379208269116093669246681766939, 433864067718761670309086568210, 486966745698096077782458241346, 538326209285827438375951167975, 587758604979579069902025781557, 635086977695245924298124579289, 680141904227167702092238779737, 722762099749983193676816676072, 762794995193744960279211163089, 800097283430468324334758754226, 834535432326734534961726389621, 865986162846067585244358517624, 894336890534495322520844088264, 919486128916424539893596376542, 941343853641359056843579183851, 959831826933086552532025153425, 974883884221744503140706470400, 986446195651549840645322859118, 994477590929216029245043271800, 998951111103950278090961440717],
  [28816748199341777656235847500, 86354518263248215285443177769, 143605427316256153947089762899, 200379293606213569778602462829, 256487520069997300077411214453, 311743720834468228882550390152, 365964340372191181984332108165, 418969263255204528036102697463, 470582412481382283683212136328, 520632334385933073327017138750, 568952768195209429731624834177, 615383198331127370729937820162, 659769387631983124692289822856, 701963889719172919385570976970, 741826538809184316285766268754, 779224915346254021535948614841, 814034785913567835469638304075, 846140515970772949425887510873, 875435454065568939417909335723, 901822286284701580757467231388, 925213359866651486256276060480, 945530975164995853763837022906, 962707645785923583256993926905, 976686328857903237200010071988, 987420637397343558552145720404, 994875117018338884918889995949, 999026666867340983851071106984],
  [27797035287275437094061196775, 83305186822435374440287355441, 138555846810376242012886580438, 193378238635275258240184723013, 247602909434337203972966554971, 301062253867220669053094233125, 353591032174954520969707327033, 405026880927091278118866962603, 455210814878459578948831581325, 503987718384381714195224401219, 551206824855534618754363514576, 596722182770663320104135217138, 640393106807006894267938596063, 682084612694470455501561477970, 721667834450188083522593787048, 759020422705128902202413294446, 794026922893866498030008308486, 826579132142881651672126974457, 856576433762748635402991386767, 883926108327827540789012285809, 908543620420655490846107289957, 930352880247496300547272723292, 949286479561962635646737602795, 965285901905490183626194976055, 978301709140256383376990551538, 988293715540161511089925163523, 995231226081069747216308760099, 999094343801465584353153825091],
  [26847012365942355803338689517, 80463630214142729309847792381, 133848250595466857022376847875, 186846951835761321374383881464, 239306924966153454428948509085, 291076914311109189533025268314, 342007653597995261248368267484, 391952296330753150371216941213, 440766839186839565193703062214, 488310537216718463615552572737, 534446309648847586399802417425, 579041135130225030489977117136, 621966435263079111033984058745, 663098445332125266433016299754, 702318571153908113479757301458, 739513731020042267846617234851, 774576681749652745266140046497, 807406327913088141048997152207, 837908013339373316352097920622, 865993794074807479275071232512, 891582692022030176399882820813, 914600928564352540686505649898, 934982137588259348480843234766, 952667557518869091442845510023, 967606202502924090153300784621, 979755014694350309107816334393, 989079008248442636499910255275, 995551476597290902602771526180, 999155200407386606442737044185],
  [25959772301247798589170385400, 77809333949536569419285507082, 129449135396945003146444164650, 180739964873425417240876941262, 231543551376029338010344631347, 281722937423261691690694860339, 331142848268448194252352965351, 379670056576797977154952670522, 427173741583078389307452853530, 473525841761707111108163053753, 518601400058569747417889348485, 562278900753944539178272587486, 604440597048510363444208776311, 644972828489477067813447896420, 683766327381355437222930239224, 720716513355730399436021061014, 755723775306585686868842066602, 788693739932264054569944799777, 819537526162145759368518108520, 848171984785929632490515494994, 874519922646898315129308099912, 898510310810045941937789329573, 920078476177627552856656862520, 939166276116423249495419011610, 955722255839996107397231845830, 969701788765052733721544098914, 981067201752598185618576799827, 989787895222221717367278987016, 995840525118838173876746713377, 999210123227436022034229585798],
  [25129291421820614727088275999, 75324395496234332763826939118, 125329223615896808619648999500, 175017459249015628555687423904, 224263585604165531668991393345, 272943202696726343188683627973, 320933341594194004074101601003, 368112775046564529663021830953, 414362323717126048129588750658, 459565157240113395207143978076, 503607089344755955917020805932, 546376866300251095816100384524, 587766447953087338002149550122, 627671280646885180726954764916, 665990561335479446997546034082, 702627492222297055120972765060, 737489525283156749860784276501, 770488596055419318990944694995, 801541346103976371538505514495, 830569333604004851345931109477, 857499231512070922818403320545, 882263012831897363072686624356, 904798122521093465758485602428, 925047635636203755227300130757, 942960401392328503826364811623, 958491172973927092029560475166, 971600723371651806447179482540, 982255949097236649491103128010, 990429971189290352428071061861, 996102296316267132885148430476, 999259859308777029698408465036],
  [24350292663424432508955842854, 72993121787799039449542941940, 121462819296120554470376463492, 169644420423992818037313629748, 217423643740007084149648748989, 264687162208767416373964172510, 311322871990210956157512698560, 357220158337668115950442615046, 402270157963991603695766771260, 446366017253464087984947714759, 489403145707052957478526307022, 531279464019894545658013903544, 571895646202634034283878116659, 611155355172393250248852971019, 648965471254657339857761231993, 685236313054233242563558371031, 719881850171610826848940217832, 752819907260531896611863774886, 783972358943341407610220525214, 813265315122797559741923338086, 840629296252580362751691544696, 865999398154092819760783385070, 889315445995114105853404038273, 910522137078502805756380668008, 929569172131939575821490154559, 946411374858402816062481491347, 961008799652053718918614121897, 973326827789910963741853507352, 983336253884625956931299302157, 991013371476744320739382383443, 996340116771955279346924500676, 999305041735772139456905624346],
  [23618133385924570536223321602, 70801698868141591289363675136, 117827278078675997114714302633, 164589938564714607253650518759, 210985334548078993474541148947, 256909939761530222994199579119, 302261278456436100016128915137, 346938154066337548899754734327, 390840875016182949755122144975, 433871477173370668357695636159, 475933942444236842961930014463, 516934413028231513572575402172, 556781400851723064234947814415, 595385991714138458327934361974, 632662043690963169403894629791, 668526379350967592604287159516, 702898971358874185836259249186, 735703121049512799579236998854, 766865629575319625869542961572, 796316961245824570532729752984, 823991398695587611347081960456, 849827189536016219462098282766, 873766684166944730401005225239, 895756464446563938460836342116, 915747462945207015950429232186, 933695072544792494372631654665, 949559246206235339092466777753, 963304586859257370964861164122, 974900427746285951855898159796, 984320904935140132890553113350, 991545030383375745531762687492, 996556821089552691122168293627, 999346209872177882072816984490],
  [22928712825422349713996243254, 68737919038377152211390052933, 114402568343910684430577720167, 159826627277978960995220462892, 204914568341939295842529781196, 249571570898416734511574761094, 293703720580638739978423118808, 337218206795880762727485239668, 380023517907674477497964175754, 422029633686313579146938791935, 463148214622939039172771900030, 503292787709084872635135283030, 542378928291003385814490574555, 580324437616350740175135238780, 617049515699883422716947129413, 652476929144676964200554684210, 686532173566012944784356122405, 719143630276472992623073444021, 750242716902916519767578229819, 779764031618897658744951296887, 807645490689708665233626258730, 833828459041670945820711027939, 858257873582659845494962291729, 880882359017455917697264130577, 901654335920107830215709254537, 920530120847918166460552363203, 937470018312800886485620552442, 952438404479602049323358824370, 965403802582199803231954986555, 976338950400356956942611559567, 985220861440244638894495352931, 992030887742448574647845302787, 996754836676664292536173472131, 999383825529704347163934050460],
  [22278395286140309693492782489, 66790954167551324003719436440, 111170905794298693735752330550, 155330137882070247309005491503, 199180976364857664151403461620, 242636359463740645783579026384, 285610010540037861691664780860, 328016609389643257846131454487, 369771961638461895839404694633, 410793165902630589371262767934, 450998778381647865731639703881, 490308974557636589269778141353, 528645707679711127265080756661, 565932863718808286372959357470, 602096412485355487336766582203, 637064554609778096278859644687, 670767864094077405646281195011, 703139426151528597062947360222, 734114970060942641307651678938, 763632996771899568925095056497, 791634901007892758107676174485, 818065087625441189027231987107, 842871081998980242318593530197, 866003634213858629380034519421, 887416816863348171124373489994, 907068116260922849436352724294, 924918516897934440272265965185, 940932579003815355522815415742, 955078509114292842640327354629, 967328223664986438388618235724, 977657405957592400393907628136, 986045558070398659927101339317, 992476055211689981098942085759, 996936251961680156609813495834, 999418285973575842056742581885],
  [21663946035424044670326379115, 64951166311857114074675543893, 108116447562102814809633287692, 151078751482210030326707095924, 193757420837026059803132945231, 236072330885759925057805077805, 277944039807847606980110863855, 319293937846712171332982464737, 360044394891419237540073772550, 400118906219161612702707674158, 439442236124960732083875778821, 477940559168940457183751040403, 515541598776003523860158655091, 552174762927714397400258234967, 587771276691655599203772983286, 622264311339468191007723794552, 655589109811201056148896943420, 687683108290467807491409378309, 718486053662234961362461574862, 747940116632832390670805994538, 775990000299982562142196683814, 802583043969291852027002961063, 827669322022754314616560189735, 851201737654437851111950000877, 873136111298778905281708169805, 893431263588091256195897045686, 912049092688671469923029846514, 928954645880918010572223799119, 944116185272537965007180976331, 957505247577698225664203305797, 969096697998780425922170939644, 978868778557233771796186729955, 986803152375830465808073392455, 992884951016801908228103840903, 997102871642729078465966536352, 999449934452962642181853817647],
  [21082477516748304447535218514, 63209948675116291895726601777, 105225034853070971863988799248, 147053034761753411728851356889, 188619579744918578310721067680, 229850766003717031018169433226, 270673285994980405537672241270, 311014558769390637049757721609, 350802859017798047492534968828, 389967444596250750571071929967, 428438682303003279375829294020, 466148171683881183422059831975, 503028866645885165914073043878, 539015194662817083240727032646, 574043173360994152501892620261, 608050524277779825525162905471, 640976783590692388595341945281, 672763409620247602718505466750, 703353886915441859060319959214, 732693826736880277762463403991, 760731063758994475968622898553, 787415748819575517819986709906, 812700437551974373875255111282, 836540174742815739168348017021, 858892574265983576796486387288, 879717894452088809228763264674, 898979108761895795583715403801, 916641971642906460677148258286, 932675079462054566085601129702, 947049926428385008272628348415, 959740955459528912699917216039, 970725604042518726819354559823, 979984345431300336098804066408, 987500726616238559607124327139, 993261409804644972713884927842, 997256261711016390838064096344, 999479068780329524271044515110],
  [20531403993998635501746758210, 61559591390611208428667745309, 102483975391227018300050937254, 143235548227267521445508091942, 183745593528914477419244431135, 223945802196474133762637597327, 263768387584994276479405483319, 303146199807907778099415177581, 342012838966962023931201208974, 380302767117504443467504475805, 417951418780327298795659503679, 454895309813726339433840701780, 491072144462193864861745245067, 526420920401242590955307468941, 560882031601237478999161665631, 594397368836792918151506290349, 626910417672266559145452115896, 658366353758142630275232660208, 688712135277640596996524675276, 717896592387703639373005509090, 745870513503610443148638762054, 772586728281809761297673467987, 798000187161200169752810467502, 822068037328974613477770710261, 844749694983342394010890285542, 866006913771981955227867736059, 885803849292082787214910202536, 904107119545566828544425930704, 920885861252150118491581425071, 936111781934810796263222998921, 949759207710896385084895436969, 961805126758767827168032116152, 972229228520376904478080189595, 981013938975655895251838113833, 988144453359837438498644758224, 993608772723526984616191431929, 997397786355355436691434380834, 999505948362153078106201749534],
  [20008403124517922952067431442, 59993167722217693635874899911, 99881858677728410528494653839, 139610597853483594909275817883, 179115763260289151562422935374, 218334090942211978813689306720, 257202776288112442988523146891, 295659574607580145222958251882, 333642900810210560782718902730, 371091928028596274325726862935, 407946685027098391646849052099, 444148152240408603067264306947, 479638356288107239685150390165, 514360462813864058021890436592, 548258867500612608746769281180, 581279285115951755221529618144, 613368836445184776799409162803, 644476132972792854593097681357, 674551359176750790323894360893, 703546352303923772120564704421, 731414679498830397498445388695, 758111712162315315070400665541, 783594697421142787071317747103, 807822826594201686768651990437, 830757300545911272737267817228, 852361391822557703286001594067, 872600503472724504931391899272, 891442224458818578808554861762, 908856381573188258207326258051, 924815087780063776360327478109, 939292786914946593070647145369, 952266294689863363717211616919, 963714835986755901559839865638, 973620078506236442059910463546, 981966163099550497784517825490, 988739732093717434384563497029, 993929961694488743182189805424, 997528638378724361502298040034, 999530799992423759518689966892],
  [19511383256793997654351234107, 58504437152420668628993321883, 97408398441584599063278450105, 136164022809143886559241078001, 174712291832646812559339048011, 212994502857666132572388538666, 250952358392272120493158816035, 288528054884511853109139301435, 325664370747701914619112943627, 362304753499487315619043286359, 398393405881969227024379642518, 433875370831756093062386700363, 468696615170544477036078364936, 502804111888784987593672750368, 536145920897131932019857253125, 568671268122709784725485786625, 600330622829751743154746299164, 631075773046871966247928387289, 660859898986119801735967122844, 689637644342027600771207612439, 717365185362099880254068258294, 744000297583597272316540527931, 769502420135041373865616068749, 793832717504605449948639311738, 816954138681463470371124994012, 838831473580255275616623043903, 859431406663111096977192123492, 878722567678213828703773343639, 896675579438770683194324071967, 913263102571757654164733656151, 928459877172445795953045959075, 942242761309872674752266004500, 954590766343634905493481517021, 965485089043799251452273155671, 974909140585727793385645230069, 982848572738629070418288027709, 989291302499755531026503167137, 994227540965688277892063503665, 997649864398237688899494208183, 999553822651630629880080499095],
  [19038455482006813761454678613, 57087762505926931902959679221, 95054297732644873952886740920, 132883013316257525764813562136, 170519061236190159767099366920, 207907872821592350966229177878, 244995237870704537839176528028, 281727383250480102368264058033, 318051050862501505010084338651, 353913574862147936405394677525, 389262958019054815921047162556, 424047947108150722163559277339, 458218107221963197822863222485, 491723894896449322463459073149, 524516729944327767975079464798, 556549065891763812347321756307, 587774458916284867153708870468, 618147635185978682041029999171, 647624556502346598566311503861, 676162484151647024565951099540, 703720040872166678493835628242, 730257270847596245051693216510, 755735697639560417297554091220, 780118379975358245193966739774, 803369965310108299301882499083, 825456741085767656028634708875, 846346683612913701795724335260, 866009504504765448570684263936, 884416694596724708227990769086, 901541565288841258196285005254, 917359287253280107145761532892, 931846926454622887854732617575, 944983477438960489182246024238, 956749893861610903121799342560, 967129116252590695996077016682, 976106097094498828691419767707, 983667823522007603367888126857, 989803338839908949932625317261, 994503768378075628933999775236, 997762385826385862562358385261, 999575191501652648874129190535],
  [18587909652332133286830102785, 55738038794528216999272842322, 92811132955437882746250340645, 129755953785524741800537571301, 166521440220548158966445103780, 203056779052553478128809419529, 239311475158303365709292619051, 275235421288088560499353715303, 310778967318463972627970735728, 345892988873197059033129971718, 380528955217588700538801264084, 414638996332331219339989683300, 448175969074202331158499729529, 481093522332156176054308936232, 513346161088761400048103842910, 544889309298449688912646789908, 575679371495674156041915893775, 605673793047833389684268721808, 634831118969691483644014248840, 663111051218014634336199142607, 690474504387248471220307205021, 716883659729274823822882252871, 742302017422609920773521739618, 766694447018836282666900185380, 790027235996596867967737656856, 812268136356123039022937870543, 833386409190021428846052446607, 853352867168918661598740836441, 872139914883579032029810582828, 889721586988315460803939462827, 906073584094008421339975508646, 921173306363051217727206729807, 934999884763558817752400569092, 947534209947443122811275741168, 958758958729693472019949185678, 968658618173621897690627907169, 977219507358315782654300664267, 984429797127581651519074993627, 990279528965356687334215897572, 994760638261284641195837406212, 997867016421711961561418965783, 999595061226923242204747258251],
  [18158193724385815933442894716, 54450631894731206029934917272, 90671253817080167031376765608, 126772287242048252986198785675, 162706117648411714337532407117, 198425351043051402814531474417, 233882876470037463740116140835, 269031928146410305100409500112, 303826147142705735062771703175, 338219642526872666411964213680, 372167051890939610324135387848, 405623601180600396151174199922, 438545163748809094011783098682, 470888318555497783577945256477, 502610407436657274501912677150, 533669591367248683303849130239, 564024905643741329015105021679, 593636313913498033672087491561, 622464760979750811913253699847, 650472224312526232850994715898, 677621764197588510655952137523, 703877572457267694796427306989, 729205019678928322898717965166, 753570700888808903497940761706, 776942479611023371054469712741, 799289530253661788136252701434, 820582378766160221537050317049, 840792941514433051699710688727, 859894562322684955300208689675, 877862047633365937339915658790, 894671699739446334379038964328, 910301348046165830210553097016, 924730378322861949777045863855, 937939759909892614433043182947, 949912070852210255712008462219, 960631520942898448629414608892, 970083972685740131358566785675, 978256960253684716622481710090, 985139706732502413611134932130, 990723140745518705219946159576, 994999917485337896224027829687, 997964477035243944785198247038, 999613568841325857017351942969],
  [17747895902112098288902091358, 53221325509403576521964201416, 88627696702076058804613540428, 123922397755479061647621909753, 159060957648394215944091062731, 193999102096146788577960057705, 228692809335831313896401104272, 263098365593362600228498010347, 297172420162464305587542270168, 330872040026196275109125577647, 364154763952198287815301142616, 396978655993491050245983803821, 429302358327424370211024585479, 461085143366196510612751277305, 492286965073286722885887488482, 522868509421143753727045179076, 552791243926555472797175822240, 582017466201287357580758323546, 610510351456818986239587271032, 638233998903326450283540740289, 665153476984453172221993670054, 691234867390880438020343073446, 716445307797250485659941889803, 740753033268607773581767433915, 764127416284206841967597389773, 786539005328287157479978973381, 807959561999236491824533126134, 828362096590456244850838190094, 847720902098209087197014518343, 866011586613781334022913274560, 883211104059450581623721965408, 899297783230057054844672906499, 914251355104527191339978095846, 928052978394692055580503380497, 940685263302643545262005131477, 952132293463802112522033239680, 962379646063770682989887837117, 971414410141322276480367510866, 979225203154296703776892312894, 985802186087763552283935751841, 991137078154015555111612198999, 995223175887988870781101179686, 998055408053249677606002447276, 999630836056270655781323305214],
  [17355729146299652461298372708, 52046275137206949059278730384, 86674109420734770085236546477, 121197508153924082968749277398, 155574873330529119511405126372, 189764782903379019020874253181, 223726040694722859268958407399, 257417726034420129920887566793, 290799243066166651549602120227, 323830369662345966511395248499, 356471305888567846131188515046, 388682721959498206776509085807, 420425805628197756101395445870, 451662308951869367576378632954, 482354594377665692520121221951, 512465680093027970988462488278, 541959284585913426189304504841, 570799870361220978705361671412, 598952686760742185888769383039, 626383811835045126762609331697, 653060193216842191961262116287, 678949687946597146181268645280, 704021101202391143555469364207, 728244223887390363625799497686, 751589869029638468178415202478, 774029906950334246806957991700, 795537299158248134863600587483, 816086130929481056443753617370, 835651642533377045564199152014, 854210259067071882286021508597, 871739618862903434474027887639, 888218600434745981298375725559, 903627347931302693869985582615, 917947295066586383372356315971, 931161187500432007005846612229, 943253103645357768153575216428, 954208473881500336160720263369, 964014098171505483393666591970, 972658162090193139997464830445, 980130251345148385458953222812, 986421365057832848734254057112, 991523928811062786129146924302, 995431812058344663926755406971, 998140379938568153561305618953, 999646971286638437463248450037],
  [16980517692728234384056534225, 50921967993347923430376219889, 84804685628614012678252330270, 118589590759425929470548886723, 152237716362226996438540730278, 185710253173012450702391384718, 218968594449380152453026949258, 251974380498996180444597286193, 284689542923116943093884758716, 317076348524138107148509461711, 349097442826528183794752472327, 380715893160950569903094917457, 411895231261881708602945602846, 442599495329594231680832540993, 472793271507991835096430111150, 502441734730456513888600829913, 531510688886597878431759780081, 559966606263577766234105048681, 587776666216520372693531676039, 614908793023407720149117754364, 641331692880801492841387767121, 667014889997724077606074239401, 691928761746073039103276770461, 716044572827033202401024992911, 739334508414088037773129275466, 761771706234416275709129985096, 783330287551689979201917797775, 803985387014566437670438017814, 823713181336488764363311510392, 842490916773780940406621712658, 860296935370446882979537565123, 877110699939569669620166752383, 892912817752776204232152380949, 907685062910925043607568008291, 921410397371076054635722905857, 934072990607095498232951998777, 945658237884362956543101669965, 956152777134006946598194920446, 965544504421595901364173806139, 973822588026941934734001787143, 980977481210154027373163058888, 987000933924012040900040450391, 991886004437253478622237199663, 995627075269215169124287961356, 998219902195450153782214565943, 999662071356524554448781399595],
  [16621185281526033776403068423, 49845188003282920429641253039, 83014107499202232824768723107, 116091289256454421500442570235, 149040180140319261529605407443, 181824368788550945981578342254, 214407625849072610544954074596, 246753944016534251555295321378, 278827577823490286044163594893, 310593083142224186454217839276, 342015356353567405830147012994, 373059673139427839806139135405, 403691726856158945048468748336, 433877666446363893398922792805, 463584133847239278989446940448, 492778300854119354040167915332, 521427905398483940978551968248, 549501287200340399755088240113, 576967422755581620592581388704, 603795959619657222727320674947, 629957249949673190129546625484, 655422383267855255435989393002, 680163218410172621032254201433, 704152414624820241445597884335, 727363461786199059394636720789, 749770709691013517218791630830, 771349396404123699387453908758, 792075675622845165701440470454, 811926643029482883145495289558, 830880361603017377979288666448, 848915885862033400150190403137, 866013285012198673277729201207, 882153664972872260771444347183, 897319189258767992575133736579, 911493098694057485956075786935, 924659729937951474687734347706, 936804532802825378210920024727, 947914086348761722901954497614, 957976113742955023987958964211, 966979495881343388944631968710, 974914283790465042598315322291, 981771709883378229724351495417, 987544198320479788678849762274, 992225375400876658453786226905, 995810084201718879423190934329, 998294431021687606243546768058, 999676222955049794478464366747],
  [16276744849602969579134563695, 48812985136049731111958204261, 81297495464425558994471262975, 113695850110665920911208095414, 145973714654896941989107333343, 178096882367618602759402625176, 210031310460567203602847185712, 241743156163840012327931903741, 273198812591049141487272155725, 304364944354496353023929779295, 335208522892625422616325624806, 365696861472313635030895593995, 395797649828908603285000243135, 425478988407300545364819203570, 454709422167743008635676148086, 483457973920596359768405609364, 511694177154667673585509745429, 539388108324357436226802597326, 566510418561397168404250195083, 593032364777572080683555755044, 618925840125468570386369286988, 644163403784967106798412350063, 668718310043916153952557207573, 692564536642171561344245769818, 715676812348967626225144148058, 738030643744400132851165731096, 759602341176647498702970441120, 780369043867433217603604455889, 800308744139140817228796143971, 819400310737931675538999624224, 837623511228187121494302816765, 854959033434601455462786969894, 871388505909296502873774764493, 886894517402420416056877433394, 901460635315852341319232697310, 915071423120898074205884466150, 927712456722308690964690472697, 939370339752755216931857379432, 950032717784437635756098948444, 959688291448742539300068025885, 968326828463264212173659366444, 975939174585136466452601034242, 982517263563014677447045831883, 988054126329623799480762772418, 992543900323762624571892297702, 995981842987209290650399084879, 998364375863181677724149439527, 999689503883230766827690105784],
  [15946289478309399287563567415, 47822648462549322962767688127, 79650364028005988212933627785, 111397062206553617998208088257, 143030451437942875166029985626, 174518355415576567874967402495, 205828745815053770307664547996, 236929774872192150992227780228, 267789807777391413732746928878, 298377454853387577158828103965, 328661603483668158817608889933, 358611449759071965248416706709, 388196529810383863720304258601, 417386750795054334181470372050, 446152421506525448597056953273, 474464282575028844127022553466, 502293536229136859823462424438, 529611875587794876248435658464, 556391513453040586457397532838, 582605210574123959653296159509, 608226303354279533514416933121, 633228730971969861881956414614, 657587061889014905160305196086, 681276519718646320796038782746, 704273008427177423656976748521, 726553136843658480912569837242, 748094242452592450640566649209, 768874414445517797116596242057, 788872516008022266700966733336, 808068205819534351294907251736, 826441958744047855107785282963, 843975085690770467285956239472, 860649752624551753159007234412, 876448998706844105112915085047, 891356753548891066431956996859, 905357853559839135953333026221, 918438057373568117197213650489, 930584060339307042124495170043, 941783508062711821098796246330, 952025008986401501308772191989, 961298146002891057710417600092, 969593487100794472319864017318, 976902595063886082499069431875, 983218036293722991285337759264, 988533388989158168372172990936, 992843251536906730131880047398, 996143254996859296062979709112, 998430105047230453778693200770, 999701984125490903637294903700],
  [15628984421543082872216699997, 46871682421591631614923912934, 78068582813436636694817371202, 109189203580061115003426006579, 140203137236113973207514604682, 171080080538603274887532374707, 201789864095735997236048859530, 232302481844973969649509963208, 262588120371503479168929336255, 292617188038471964737555888235, 322360343900529151722476582398, 351788526372421720972343829549, 380872981624629956763362548870, 409585291678301542528868400057, 437897402172031513108978043622, 465781649773358042249216623396, 493210789208190933569308793449, 520158019881763056646815749455, 546597012065094167467994257182, 572501932621381191316870443526, 597847470247178721264806545149, 622608860203707771604190845172, 646761908514129279832630304459, 670283015603141015802587014323, 693149199355801965948647941675, 715338117573056446459967122704, 736828089802020705512427714820, 757598118519707176035667964438, 777627909649495475627551386834, 796897892390314476389572882183, 815389238339176254393988758649, 833083879888400823542915833845, 849964527879591284293362591420, 866014688497164623410739969676, 881218679385018415573316825428, 895561644970726986698521022430, 909029570982529690467126337789, 921609298145333952666951328482, 933288535043079545924333668131, 944055870136255977962774706415, 953900782925491742849336930894, 962813654255815527293659326030, 970785775763706331930897857898, 977809358486918288553781088429, 983877540706057015496100155511, 988984395242991748004418745808, 993124937037443459652009892849, 996295134733125149186131732241, 998491950639595818400163359186, 999713726773441233678228469342]]

/-- row `i` belongs to degree `2 * i + 3` -/
def ODD_ROOTS : List (List Nat) := [
  [774596669241483377035853079956],
  [538469310105683091036314420700, 906179845938663992797626878299],
  [405845151377397166906606412077, 741531185599394439863864773281, 949107912342758524526189684048],
  [324253423403808929038538014643, 613371432700590397308702039341, 836031107326635794299429788070, 968160239507626089835576202904],
  [269543155952344972331531985401, 519096129206811815925725669459, 730152005574049324093416252031, 887062599768095299075157769304, 978228658146056992803938001123],
  [230458315955134794065528121098, 448492751036446852877912852128, 642349339440340220643984606996, 801578090733309912794206489583, 917598399222977965206547836501, 984183054718588149472829448807],
  [201194093997434522300628303395, 394151347077563369897207370981, 570972172608538847537226737254, 724417731360170047416186054614, 848206583410427216200648320774, 937273392400705904307758947710, 987992518020485428489565718587],
  [178484181495847855850677493654, 351231763453876315297185517095, 512690537086476967886246568630, 657671159216690765850302216643, 781514003896801406925230055520, 880239153726985902122955694488, 950675521768767761222716957896, 990575475314417335675434019941],
  [160358645640225375868096115741, 316564099963629831990117328850, 464570741375960945717267148104, 600545304661681023469638164946, 720966177335229378617095860824, 822714656537142824978922486713, 903155903614817901642660928532, 960208152134830030852778840688, 992406843843584403189017670253],
  [145561854160895090937030982339, 288021316802401096600792516065, 424342120207438783573668888544, 551618835887219807059018796724, 667138804197412319305966669990, 768439963475677908615877851306, 853363364583317283647250638588, 920099334150400828790187133715, 967226838566306294316622214908, 993752170620389500260242035938],
  [133256824298466110931742682242, 264135680970344930533869538283, 390301038030290831421488872881, 509501477846007549689793047867, 619609875763646156385097311650, 718661363131950194461624483749, 804888401618839892151118406997, 876752358270441667378156885934, 932971086826016102349196989038, 972542471218115231956024076821, 994769334997552123523925715446],
  [122864692610710396387359818808, 243866883720988432045190362797, 361172305809387837735821730128, 473002731445714960522182115009, 577662930241222967723689841613, 673566368473468364485120633248, 759259263037357630577282865204, 833442628760834001421021108694, 894991997878275368851042006783, 942974571228974339414011169658, 976663921459517511498315386480, 995556969790498097908784946894],
  [113972585609529966932894983870, 226459365439536858857239107360, 335993903638508899730319034207, 441148251750026880585974155689, 540551564579456894900300941560, 632907971946495140927734637634, 717013473739423699294816211642, 791771639070508227144397344107, 856207908018294490302737222707, 909482320677491104300645018210, 950900557814705006851908030644, 979923475961501222855873355661, 996179262888988566938887208381],
  [106278230132679230170982392430, 211352286166001074506375728903, 314031637867639934948195923191, 413152888174008663890706586032, 507592955124227642102627919628, 596281797138227820379586211189, 678214537602686515156185005392, 752462851734477133912610077212, 818185487615252444989572214579, 874637804920102790417793421257, 921180232953058785093753436083, 957285595778087725798208036981, 982545505261413174870926015786, 996679442260596586163191532549],
  [99555312152341520325174790119, 198121199335570628772412996033, 294718069981701616617903897672, 388385901608232943061351461288, 478193782044902480440594039356, 563249161407149262720944923595, 642706722924260346184418203233, 715776784586853283905970865366, 781733148416624940406360020195, 839920320146267340086904535940, 889760029948271043374192008982, 930756997896648164956945759729, 962503925092949661789052404106, 984685909665152484002465166735, 997087481819477074055626554223],
  [93631065854733385670742924123, 186439298827991572335798759219, 277609097152497029403248067298, 366339257748073341070220623254, 451850017272450695725993277241, 533389904786347643548894264995, 610242345836379027307287513538, 681731959969742786268215946919, 747230496449562157859055124898, 806162356274166589796200870783, 858009652676504064643061480146, 902316767743433583040531331519, 938694372611168350355835124364, 966822909689992768928377706679, 986455726230642488110375698265, 997424694246455217266168017580],
  [88371343275659263600929433498, 176051061165989569974303656445, 262352941209296057970895200456, 346601554430813945876979834930, 428137541517814254187620613001, 506322773241488615024297555837, 580545344749764509934502008190, 650224364665890388675792808985, 714814501556628783264408631224, 773810252286912555267423009210, 826749899092225406834050612749, 873219125025222331523282349141, 912854261359317614464937063556, 945345148207827329538725985530, 970437616039229833215070482585, 987935764443851498035117089185, 997706569099600297260163139312],
  [83670408954769901943048331736, 166753930239851976968671730412, 248667792791365758805567751488, 328837429883706999498471801340, 406700509318326110100931591614, 481710877803205554147192868883, 553342391861581781235098358229, 621092608408924483148152591595, 684486309130959357445523212431, 743078833981965262547047417474, 796459200509902293393046335500, 844252987340555967987456276175, 886124962155486078946149509017, 921781437412463742668143686701, 950972343262094821328576096816, 973493030056485744328890475666, 989185963214319186684099060584, 997944582477913648940803074317],
  [79443804608755477581917083193, 158385339997837799922701061361, 236325512461835767336006327333, 312771559248185922535996911786, 387240163971561455853881965637, 459260512309136048663246633110, 528377268660437473896343635808, 594153454957277988692890074619, 656173213432010910734425934976, 714044435894534679133867036152, 767401242931063499832272404228, 815906297430143104353232678410, 859252937999906153913797439126, 897167119292992887848291090861, 929409148486738229697816964358, 955775212324652277110891897191, 976098709333471053844850319890, 990251536854685983639775117247, 998147383066432906005472302852],
  [75623258989162996923766193651, 150813354863992163574377967885, 225139605633422775605786256655, 298176277341824865922982880479, 369505022640481441428366913300, 438717277051407088517119856728, 505416599199406032708336070203, 569220941610215869654747215283, 629764839072196320488649091695, 686701502034951289584603856529, 739704803069926181060168744469, 788471145047409372736221781467, 832721200401361331244272779049, 872201511692441408833670574234, 906685944758101172958340413231, 935976987497853825682318275285, 959906891730346226099441696069, 978338673561083384469170706674, 991167109699016308250158894573, 998321588574771441519188508088],
  [72152990874586235422327250956, 143929809510713310770299937611, 214956244860518209014878381474, 284861998032913627105722894838, 353282612864303806645476364143, 419861376029269252487279394561, 484251176785734724069633434749, 546116316660084719140405047180, 605134259639600935725083071124, 660997313751498133165134763741, 713414235268957054851920877991, 762111747194955121460328463029, 806835964136938635279074740878, 847353716209315048999086085822, 883453765218616863337678011642, 914947907206138729456102870799, 941671956847637861818477390398, 963486613014079993410194963574, 980278220980255331505529382181, 991959557593244146420718341330, 998472332242507713517636187318],
  [68986980163144172490414614104, 137645205983253028756590041423, 205647489783263745719787225472, 272669769752377560608765391616, 338392654250602161643404100032, 402502943858541914077974508548, 464695123919635098579601502310, 524672820462916067091134100460, 582150212569353186680967334444, 636853394453223359271223845903, 688521680771200525232019825880, 736908848945490352623738848595, 781784312593906291312363188099, 822934220502086337035775260027, 860162475960664225339078870567, 893291671753241738464649051493, 922163936719000388097467360961, 946641690995629061784720596954, 966608310396894604736425160892, 981968715034540568239318473634, 992649998447203741748617120598, 998603645181936638156547676901],
  [66086923916355675160473777474, 131884866554514897053823530724, 197106110279111807961491358371, 261465459214974570306982966205, 324681486337735902210761299180, 386477764084667139583302387606, 446584073104855702725182142349, 504737583863577919774289025351, 560684005934664194483058317418, 614178699956373608595462542604, 664987747390332729136702648572, 712888973409064301661879327771, 757672918445438633573996523570, 799143754167741942915562069204, 837120139899902121277598948566, 871436015796896316940985464556, 901941329438525356867171301977, 928502693012360648197184924611, 951003969257708442589802923851, 969346787326564497145744277560, 983451003071623708764901034036, 993255210987768634692189684632, 998718728584212109183947714787],
  [63420684982686786028834820878, 126585997269672051067985288576, 189241592461813586485310173860, 251135178612577273507155942825, 312017532119748762207860676506, 371643501262284888863734540947, 429772993341576524658584141807, 486171941452492042176976096059, 540613246991726066558225467229, 592877694108900712455864336793, 642754832419237664056856948584, 690043824425132113504751807275, 734554254237402696213674212859, 776106894345446635018142812248, 814534427359855431539500787765, 849682119844165701034881872243, 881408445573008910037031535817, 909585655828073285213019640356, 934100294755810149058982460637, 954853658674137233555243679668, 971762200901555380139972421505, 984757895914213004359298995369, 993788661944167790760113859258, 998820150606635379361831272704],
  [60961100150578724734194706843, 121695421018888766963820420963, 181977026957077545323998701169, 241581666447798703846733114869, 300287606335331939530245649644, 357876456688409509775201088520, 414133983226303877936871809745, 468850904286041063610457258812, 521823669366185842514087784827, 572855216351303836522394702590, 621755704600723273755042745403, 668343221175370086864460419404, 712444457577036644580524855400, 753895354485375525763960025452, 792541712099381205234410878376, 828239763823064832854818424017, 860856711182292371473495743716, 890271218029527303277795370737, 916373862309780230823571294251, 939067544002962383435367806391, 958267848613908194557707038316, 973903368019323867231755486394, 985915991735902996583885707558, 994261260436752574621084897949, 998909990848903495168995877273],
  [58685054300259465022711945833, 117167809071955150140256808779, 175246662155325750729791009133, 232721403724272593643363642200, 289393906451626206426547006594, 345068808495722356694310646070, 399554186953952977392563136238, 452662219461845791383144760753, 504209831657133437039116972888, 554019328277067881014734990810, 601919005713769327464294371965, 647743743916510068751106189939, 691335575601366723540748823139, 732544230807510253782135586722, 771227654925532307866035875626, 807252498416895478220485638026, 840494576545801375430127509830, 870839297558241351601700086889, 898182057875426625925520029973, 922428603042812128267819100083, 943495353464441879021070667696, 961309694623136332369858193683, 975810233714984581632983858106, 986947035023371521720373081311, 994681919308007078636035893484, 998989947776328227121054267032],
  [56572753818336776327337610893, 112964288059329266588437923889, 168993963646873208282842493512, 224482300647845483400189062403, 279251553200806538549862451176, 333126278890023885189471490233, 385933900740979429755848543913, 437505260037174591808481024297, 487675158187474097208263673539, 536282885908343296720599572844, 583172738026032102974304815588, 628194512249928140090636215033, 671203990319826395796326728006, 712063399986637838909350192121, 750641856348021908674987682707, 786815781127622365897636250938, 820469298559320912454241285035, 851494606617154471460245320967, 879792322419895506067590906824, 905271800744000025781911424630, 927851424720791696816271269233, 947458868041210741859979847645, 964031328593135198778536631377, 977515735503989208859216606341, 987868941198889198522385684473, 995057977847411875043189116506, 999061419564818541479431839519],
  [54607151001646824219830559737, 109051332808787800978526521311, 163170062591264251043280378322, 216801828796124036413613975980, 269786573161838765763345609800, 321966168395378640590207915805, 373184890086594458552134396145, 423289881451563950960024353472, 472131609517975709588060082049, 519564311391187606315153819806, 565446429269236759018985552805, 609641032908715365423848901925, 652016228280976891249361840796, 692445551199517739040483688444, 730808344744523322827344670737, 766990119359450195491716144018, 800882894547218242076008718795, 832385521150439120829010895865, 861403983262046944722241881805, 887851678882221329513000147642, 911649678521391212728430561620, 932726961067101696100754154297, 951020626447876741911904110605, 966476085171886679114858583942, 979047226709468713798820875367, 988696577650222048849758398384, 995395523678430311135125027362, 999125565625262850572009849554],
  [52773484088310003951680328603, 105399879016344143836914387762, 157732505587857968115217856272, 209625503392036544923366790631, 260934237342811711610616267414, 311515700803013700318360149106, 361228914169794809992312452334, 409935317810418966722823693756, 457499158253266690226215260435, 503787866557717978768087280457, 548672427808396384372256300387, 592027740704030144464176159757, 633732966238850097512580930175, 673671864504937227024027212755, 711733118677197731595915721966, 747810645278640231889257579013, 781803889862360905632678812767, 813618107288211571435089773821, 843164625816872201470350953972, 870361094292882260963426233104, 895131711743472085364296829462, 917407438788155281352541485215, 937126190353453859405138471043, 954233009376951055863233112186, 968680221681781531353633339673, 980427573956715688449607981403, 989442365133730931782183935023, 995699640383245964687201823433, 999183353909294683756424019505],
  [51058906707974349366887500619, 101984606562274068957208404764, 152644240230815300529506761773, 202905642518058499226947203343, 252637687169053495833690863334, 301710628963030712604486525457, 349996442204066834533434477062, 397369154725756609178291847369, 443705176538531601995589301066, 488883622262252118820698511426, 532786626502925265638481716373, 575299651350830618600369981945, 616311785197921724709616859329, 655716032095070871699185777836, 693409590894491155499184363960, 729294123449465109688956690136, 763276011172312197145914668494, 795266599282359649152048802753, 825182428108659950664281892451, 852945450847663445564846904674, 878483237214881032478947513893, 901729162474001170642040042684, 922622581382955261257551500556, 941108986681361147477543860978, 957140151912984091372080287421, 970674258833182908247408453548, 981676011284037079685172540751, 990116745232517050965531685700, 995974599815120234268012760712, 999235597631363471731862259569],
  [49452187116159627234233818052, 98783356446945279529703669454, 147872786357871968569839096553, 196600346791506684557627457066, 244846793245953362748404593925, 292494058586251440036157155551, 339425541974584402468834431594, 385526394212247892477615022274, 430683798795111600662088933919, 474787247994804399922212309851, 517728813290033248124477584526, 559403409486285013267697800070, 599709051877625235739008926869, 638547105821365385000306953873, 675822528114986090131103315970, 711444099584845807851431537704, 745324648317847417829321661038, 777381262990372335563330189911, 807535495773456760051465986363, 835713554319502843471807769616, 861846482364123719539611839431, 885870328507853426290298457313, 907726302778531558036953132916, 927360920621843205447031381325, 944726134041009802966375319628, 959779449758941927070354166259, 972484034697570022801960678577, 982808810593727234862511405692, 990728546892189466810894667205, 996224012777970108602193361146, 999282984029123780378936140929],
  [47943462353171857522529754290, 95776653209197505652218554542, 143389554698975171131249621986, 190672655626142769774912359066, 237517203346416806570712427322, 283815453902248730617655425960, 329460919837486407645286712413, 374348615122066012008793890843, 418375296623409009264199010753, 461439701569145057697834100101, 503442780455006882341043051391, 544287924862227138545572479748, 583881189660487313327154462432, 622131509085400241582599551864, 658950906193625133040940771961, 694254695213991633552622479948, 727961676329424679011973729293, 759994322441999786873982753116, 790278957492121843047380416074, 818745925922651453433919137326, 845329752899930283942450040735, 869969294926407036194131958065, 892607880504738931423285539698, 913193440542846261736546920983, 931678628228749337965676987346, 948020928168407506373769740729, 962182754718055237711983746467, 974131539833551169074967887391, 983839812187034941377637781406, 991285276176801668721821181066, 996450948061849163055794938322, 999326097075412877265693611242],
  [46524035976017219564639128464, 92947311252079876631720655951, 139169283353523713563890694409, 185089845783640168816231447423, 230609544832115737925229867420, 275629794969689587715555270952, 320053092362536331066875187822, 363783226043954170826044467175, 406725486286013915985299316235, 448786869719890883995132763371, 489876280760646626095592971940, 529904728900236016169800775698, 568785521441471021257571687170, 606434451255557386200297831174, 642769979156615354278134186926, 677713410498280828780525157184, 711189065610040327854835944268, 743124443704366206695961478027, 773450379899980327541548909768, 802101195021694434417253564593, 829014837853301197689073948319, 854133019537050650790743401660, 877401339831658720400298181370, 898769404961320375818489006838, 918190936812738581247247289003, 935623873270750876866652904789, 951030459540145373212348138981, 964377330427712611695647149931, 975635583922908052394254411772, 984780847755951113442592799844, 991793347082309609461697774459, 996658027206113735364370743604, 999365435552976797970416317461],
  [45186210615101723531632403458, 90280108392828742562119667064, 135189569085682992158471603970, 179822845240643164359713218106, 224088753633999013281464115083, 267896861553503428581598596625, 311157671547281186585905330323, 353782804262066317960127093453, 395685178997244447351756104594, 436779191605844420869876893386, 476980889379045710341440876655, 516208142556933709171820720450, 554380812115132014537972991218, 591420913484555825569309504422, 627252775869849401767457558667, 661803196841078244024226231615, 695001591882928460929743852287, 726780138596008088657160129952, 757073915255837851594723194433, 785821033446759760335369049081, 812962764500295613856480080976, 838443659480504213261616472985, 862211662472744083857172022829, 884218216947252436662818857564, 904418364985827140066524833237, 922770839180444997188817784540, 939238147041608472966835800157, 953786647805181897533939837631, 966386621642860566855799811671, 977012331622094263389466091022, 985642080022637593237139352621, 992258266716853118700433913219, 996847500485195100459497014954, 999401427543244788208060967646],
  [43923148558135329332216935147, 87761513634500682361806903386, 131430475402266087012909921506, 174845741028584863169687589857, 217923507382453335534383026418, 260580622797318662023926452892, 302734747576191376434942069153, 344304512929447024710467470167, 385209678038527295989720328015, 425371284942369555863251487219, 464711810947597822947578627298, 503155318268290070833605381554, 540627600606487356004911333591, 577056326390519810485798997183, 612371178394682336310376090633, 646503989470787642801403479108, 679388874129644576284578125360, 710962355718544370974605259809, 741163488949376848010344106748, 769933977541036647405165361695, 797218286749317960639490742121, 822963750567552752389365050299, 847120673391873968941067191863, 869642425956307411147088203066, 890485535355206511673911760992, 909609768984534359441634902285, 926978212250871410768130508729, 942557339922271159124395673779, 956317081041052874884704374973, 968230877426325345680304591242, 978275736113601792874824071538, 986432277268261368092141846666, 992684784870641569941805634716, 997021308251255130065672598011, 999434442119736927561659947166],
  [42728755038413991185690777712, 85379458949596300995857137156, 127874203179614301754679116254, 170135364060700758505645569447, 212085744603730526527243586148, 253648715511301393555804785178, 294748355153836768255855097535, 335309588253022456115741158649, 375258323019251502905738919716, 414521586492575763889120927830, 453027657839945395191990527996, 490706199365251987700222346628, 527488384992870936800441040394, 563307025990016512736242574232, 598096693698270976000398858689, 631793839050118456511040762023, 664336908652196338882376121513, 695666457223262717220219680899, 725725256181559818503135729068, 754458398183323480238445377605, 781813397421644751334091296953, 807740285502735924807061240368, 832191702724909743755788339298, 855122984594299484507990828399, 876492243420651499825942880307, 896260444846691221048938189949, 914391479176256414741683526451, 930852227381224559904698238345, 945612621689483571931667851004, 958645700697974220413851257029, 969927659054985912747007663310, 979437892056483624562704988078, 987159036624932114781028432962, 993077015588945151555204208088, 997181130771611267253561485763, 999464798845881170996471192948],
  [41597580029079455974891331228, 83123147002610991697497087659, 124504812532900261625084491739, 165670937352137818385949520778, 206550255333159607114474453590, 247071996864234756904240039398, 287166011364297246942701665150, 326762888726526302358399974760, 365794079480035925326018020903, 404192013461653613190806873329, 441890216792348266537335463881, 478823426955803157015809075990, 514927705779916640527991952384, 550140550125645551503014936343, 584401000091577880319607311343, 617649744546925964450185877593, 649829223810262232586886934795, 680883729296269598044383905503, 710759499958041126769559334273, 739404815358032526496513566777, 766770085206641925524094754184, 792807935213563510360413945680, 817473289103541314843395271205, 840723446654958050097011601406, 862518157626883425461262345923, 882819691447895542160092313544, 901592902548446334093964271936, 918805291228393991271239495293, 934427059964107156836194126254, 948431165079287377921919847247, 960793363741892314155448000613, 971492256343063823363813797468, 980509324597416605771693123735, 987828966767524520141266680075, 993438536578892704377047197846, 997328428962231803309065756744, 999492775536035456483467194356],
  [40524735209115925930069812857, 80982888385503131206497786835, 121307986890552586641806820250, 161433776694160931607184099718, 201294331229944356638147657258, 240824159712432197609681799711, 279958314738276122064704751512, 318632498994687308777523081195, 356783170899781070578555317605, 394347649001263560468467465320, 431264214961935682072524169315, 467472214962811794644643659927, 502912159357251517807726309437, 537525820412377739024424827550, 571256327977198250806983160177, 604048262920257384970148386065, 635847748183312367013651211508, 666602537301451493590916058493, 696262100244242224791019967655, 724777706436911728780785514518, 752102504825215941384386620459, 778191600852543141872867943895, 803002130222925227383637799181, 826493329329002119435586710882, 848626602229624036469577833301, 869365584067734059878654379413, 888676200825564069894834904183, 906526725321257818021090807691, 922887829359402199928045435256, 937732631959061044190142145802, 951036743600591871523428828181, 962778306467734311940161867735, 972938030749108390346306143672, 981499227331138462388344837192, 988447838222561307325019029668, 993772470949878248308911192267, 997464477869214099874869736334, 999518614633410009748581040343],
  [39505823435974064058994796243, 78949963218954405448085252956, 118270832007660881166912057234, 157407034933861605028225613381, 196297465463184641659193928761, 234881400805731915877249358919, 273098596727523543742536067889, 310889381614736437208874957251, 348194749643867867239137372132, 384956452912350883922246837847, 421117092385771928732145760026, 456620207519689131148709734232, 491410364416119821095860854197, 525433242377054547896267638735, 558635718719858906655853105292, 590965951722139982853281611989, 622373461566577238882909702241, 652809209159343998524893128147, 682225672699071059277620331760, 710576921876824163758205219862, 737818689591278209525321646779, 763908441067170108458325761699, 788805440269197765565028634381, 812470813507806773764807907464, 834867610137777882067313399869, 855960860255219376473270846800, 875717629303529476659517434981, 894107069504235101310429787954, 911100468034580800245006188968, 926671291880903873664522784007, 940795229306577250300016736784, 953450227889269135963276154423, 964616529114864786107449590865, 974276699597807118178834189554, 982415659251278930098581377624, 989020707687784337874758037557, 994081554785542622411154989282, 997590394336941435176854179003, 999542528479569844324151575957],
  [38536878581511983836485635469, 77016502972127177318290702766, 115381704043436711258853860425, 153575482665630636856788120955, 191541094391042855739847066208, 229222133759316105441507310191, 266562618098935339145502371830, 303507070700626164551631676357, 340000603239048339775819437980, 375988997320331287920516854427, 411418785034297541686005843023, 446237328391699056648103024078, 480392897528448270142662953368, 513834747560658215522019758498, 546513193976311273079586333585, 578379686451551369482078004760, 609386880981936546058807831698, 639488710221494554644762007346, 668640451925090146604899187319, 696798795392435609681860494730, 723921905815052614443363963354, 749969486430620672222514710983, 774902838392423431405637521084, 798684918265028282157201455007, 821280393060910223458767880433, 842655692736467046206712622807, 862779060069791894673747431886, 881620597846720146168274251561, 899152313286156530852665968225, 915348159640750717289077682141, 930184074915167503022545555195, 943638017652813821180581535385, 955689999756402515248837068806, 966322116338056111070092156099, 975518572672361296916253860826, 983265708566430227219940909949, 989552021371021999127889387245, 994368193285219865022676840380, 997707159988346463657951071070, 999564703690319034476721091516],
  [37614313997584382667578704669, 75175389140377282326813856489, 112630061927240307807978465144, 149925319457686817796109061778, 187008374465722680789553368793, 223826740034327399193191872608, 260328303884825917912495782485, 296461402136003191110713260688, 332174892428564182315161995736, 367418226311440367401592804394, 402141520787488735564028835804, 436295628917319275485497472310, 469832209381320328717450207075, 502703794901426132021111193521, 534863859425785310580242847527, 566266883981240803007683851599, 596868421100418312391830576789, 626625157732239358494922932207, 655494976546823717483086336569, 683437015548021780255840789565, 710411725909217464480457649146, 736380927950564267407382317424, 761307865178458740719255283827, 785157256310815840287636163602, 807895345214589632297864886204, 829489948684984276401755416171, 849910501998933797338429363278, 869128102178716983499116049040, 887115548905063340740519411798, 903847383022899508081720680359, 919299922587207943780996219176, 933451296401838619235679773573, 946281475011790874442295256372, 957772299122767105961511740153, 967907505450128729547014851894, 976672750072842934232187870211, 984055629596681471537066851699, 990045701297265222772328057226, 994634507631780323407966478826, 997815640403429961756266273638, 999585304807049343812604479812],
  [36734878201249663520468768641, 73420166043291125619507727235, 110006340111577237352680016914, 146444010790510989210901521697, 182683988937112673876281089537, 218677352284059015710243291188, 254375511482453522497730660374, 289730275695173703538709627406, 324693917652247557454016555337, 359219238080438048756644806233, 393259629420059190650214752960, 426769138743009701721994413332, 459702529787088720761469421283, 492015344022851310477142125447, 523663960670567874788045336171, 554605655586269433158990751210, 584798658937388085710292056423, 614202211590136993071296934860, 642776620132514714843399431609, 670483310458662660702672074545, 697284879842249547650963989896, 723145147428601021384583393215, 748029203077434073956269902812, 771903454490293078660311061111, 794735672559116505447149321514, 816495034874791614720573247999, 837152167337082650198541848709, 856679183809956189095811322544, 875049723769097087638652949360, 892238987891355901581713742647, 908223771539091884896825081043, 922982496096090045588769455886, 936495238116430699686697601650, 948743756254578953404648576762, 959711515957188362396346852856, 969383711923678328005136203614, 977747288412243391933333872939, 984790957685580497327164094874, 990505217716415963787124329921, 994882374295616278453367144084, 997916601198116933150308835969, 999604477357478454326303594990],
  [35895616626800899472717182653, 71744965501499429712830854357, 107501838508942771605762475900, 143120146731008139012399367021, 178553979853044214298229486984, 213757665340101603593762577695, 248685827306677131599537923360, 283293445004091873194452195365, 317535910850115714331343646849, 351369087926041315715693878668, 384749366867096863663811170222, 417633722072869055029910756145, 449979767165284378401573103411, 481745809622666805089461781503, 512890904519452259140909518154, 543374907302293353442616149350, 573158525534530411874212784992, 602203369542335201687954966891, 630472001897250447293694777076, 657927985671349391042954035197, 684535931402823674119861517329, 710261542711472902841968378563, 735071660505313794102036048985, 758934305721349315735428041269, 781818720545437736354677988572, 803695408058177778235321113896, 824536170255780480133434725495, 844314144397035220240557020020, 863003837629706602570190489181, 880581159852041841057713216081, 897023454767569367017326260559, 912309529094122884382983357958, 926419679891237219951464182783, 939335719974205747877988092886, 951041001389313573919119010523, 961520436936073169264229683225, 970760519747284274353547309067, 978749341003816272426478037569, 985476606068420367963807908227, 990933650110964570522867823539, 995113458137992005945508330416, 998010721562982358081678891432, 999622350432484272389096185749],
  [35093838497457001384747158091, 70144441548005792132557218331, 105108626970613411698690916274, 139943319050374196667503800109, 174605601607596274075495096941, 209052770870341755872910385827, 243242388085282049589001028576, 277132331802052117947072883936, 310680849766689799743267191895, 343846610360227952477910770481, 376588753519067603880406152475, 408866941074398818696415454976, 440641406448651818594850294228, 471873003647753163790075610801, 502523255488829551445760041748, 532554401003943956969124821197, 561929441961464304933287778855, 590612188447752393043094573999, 618567303453019120698681242117, 645760346406419848716586825260, 672157815606759550822669967366, 697727189496539905894596229471, 722436966728508243370399960814, 746256704975360009380889993614, 769157058434801100328116588867, 791109813983793371456487618748, 812087925937486030236493416990, 832065549370079127108473140185, 851018071956677446875566874664, 868922144297083719255345284077, 885755708684469948280780672175, 901498026283997752087531205278, 916129702688823431211062425026, 929632711823718603373074061198, 941990418170214919067878689865, 953187597292840940578782389766, 963210454656535441853845356349, 972046642748909359704164618602, 979685276583876641129616524844, 986116947861103674004151316045, 991333738808665300673174703823, 995329240406749760327228223129, 998098605710273929484265080649, 999639038864533459581454128691],
  [34327088034825330846991415814, 68613713649625415750365222814, 102819462118707721920624841466, 136904014048826416020621807715, 170827192904925167218355600232, 204549012367488773656851060619, 238029723465682118992550495973, 271229861430719269390085131952, 304110292214235318462596312781, 336632258616828491012942440830, 368757425972399562862388463321, 400447927334439305030325206406, 431666408111001803186172763087, 462376070095751451638246516074, 492540714843183417561821755602, 522124786336890588473257049700, 551093412900583559842207845115, 579412448302463132325791960077, 607048512004496052778235594983, 633969028509153281498803697732, 660142265757234790190264552440, 685537372531524655146344202941, 710124414822193871743145495796, 733874411111094782254467801314, 756759366533369288592606731653, 778752305876122344694652910716, 799827305375292240650490251814, 819959523273280333976318164187, 839125229101387031796118461457, 857301831652642579078184410159, 874467905612230385893604643694, 890603216814397403791498665986, 905688746096571865002580532752, 919706711723450488141330604789, 932640590356264406612214487854, 944475136545718668062791481283, 955196400732276363874021897272, 964791745747276075776495103703, 973249861830690734322467523755, 980560780241213439036862799958, 986715885723469786907936385937, 991707928817277101567620255032, 995531042505352453689383118206, 998180792590534754673220140020, 999654645076576130382989227516],
  [33593119357776561271187737333, 67148317172955104387614339655, 100627714710617278030890949872, 133993518802880746725403009282, 167208064511663456666399611408, 200233857646696096572340175419, 233033617090786443643250648714, 265570316884556881013475784465, 297807228023147909018027461643, 329707959917705642792370280359, 361236501474849727744629400660, 392357261747749387298647332415, 423035110112918960207128824320, 453235415927379745929265464214, 482924087621421657446984362656, 512067611182835427355166711244, 540633087989173217270796747985, 568588271945331683331925687931, 595901605884536044341298253633, 622542257191635632724261532381, 648480152608499893383398556379, 673686012182227915571454891323, 698131382317853409145990775560, 721788667898239650908217728708, 744631163434914460185216229501, 766633083214692959396041265060, 787769590408075201199532030100, 808016825106586578646116469379, 827351931257451916351476632983, 845753082465261302946519737571, 863199506631601715124533650646, 879671509405002962140067541580, 895150496414999027485759765053, 909618994265676445699938522517, 923060670265853484389249716365, 935460350875189251367484848513, 946804038848475454452154718578, 957078929065123352230644283310, 966273423040059125621511331258, 974377142133410456975732109237, 981380939533501606767866159455, 987276911268572265931696323001, 992058407192062741161221584058, 995720046248950179380264604122, 998257764171412775752493196294, 999669260657168688326820857745],
  [32889874530788938676985995672, 65744160039749798572533081869, 98527306014734857520206851657, 131203838921287136147017106515, 163738400587355934951945188446, 196095786463182778498270954666, 228240983714958103638210341000, 260139209111028909464385597949, 291755946659662073485054343460, 323056984957636889277322416080, 354008454209253305823369256585, 384576862875699010848323446551, 414729133915118515972148187530, 444432640574170340460531680699, 473655241692343777570580766949, 502365316480834043324796972747, 530531798738343289256909367453, 558124210466784403949682407246, 585112694850514089292358503597, 611468048563410696074958268580, 637161753368840027179724860511, 662166006978318026262700936057, 686453753135482209243488554857, 709998710892823105801742982685, 732775403049502118342710969300, 754759183719492392253656515325, 775926265000223956226837850592, 796253742712893188667862788753, 815719621186609653860229620899, 834302837059601322207667365948, 851983282071784280841952168647, 868741824824129904742857793524, 884560331481440557481542165750, 899421685396393203740819738780, 913309805634067347397871327296, 926209664377719775633337969409, 938107303198478037136253980726, 948989848174295482042094922135, 958845523847909449427667101143, 967663666022196524115608941875, 975434733411440911686142374580, 982150318221625646102970869532, 987803155906081287771609210267, 992387135003501404489007395657, 995897311188423402061515735453, 998329952516746331615185023022, 999682967707192019483573499623],
  [32215464310261708911051988252, 64397484688495848021884642858, 96512651921921606901656876219, 128527626200208545469683297152, 160409171726631327382780433059, 192124191221244646235720057752, 223639760280259517555185298303, 254923161555951399025067249831, 285941918721616923173769417729, 316663830186319188061197580533, 347057002524421321481913370352, 377089883585204144300973019465, 406731295248195902884205980773, 435950465790209876438385537127, 464717061830488813407275677399, 493001219820793197245320592044, 520773577047742836547220111590, 548005302115227734655985852214, 574668124875244104327377514936, 600734365776084208376919266345, 626176964597413854512988540320, 650969508542408255109624198701, 675086259657784965824565276043, 698502181553271116636779300611, 721192965392770524946237090906, 743135055130253938043062157537, 764305671964182056902005659312, 784682837985085728830414310450, 804245398991770565478887960140, 822973046452484441750419840028, 840846338588286767457514933820, 857846720556790301260558105700, 873956543715414215359203312388, 889159083944300362039028599158, 903438559010121616414912334193, 916780144953188888049795999482, 929169991481619140822260180012, 940595236358027984371684870847, 951044018766639195210907419168, 960505491652787246157486450449, 968969833034950922100110122032, 976428256308619764924244830883, 982873019613528351035923788570, 988297434501838787317893544168, 992695874778551609258150292616, 996063789477488413024311805477, 998397745860566436733244243116, 999695839995246724911967888544],
  [31568151209772265203458126467, 63104834600026240206507928375, 94578613719052031876438550482, 125958114819488461718240752955, 157212058132358394383799434404, 188309289047424476421634946931, 219218809168784070389443830106, 249909807214746539358834394695, 280351689731191267177664844289, 310514111587790736323991216382, 340367006226699443041390989924, 369880615633556193728666925661, 399025520000924152379317790614, 427772667054599621755167603236, 456093401013556637292960551355, 483959491154659700177256719778, 511343159953671014219136815756, 538217110774501032544868975916, 564554555079101550743094404498, 590329239130878564216650012807, 615515470165007177050707181743, 640088141999562525102820426429, 664022760061938457558342323005, 687295465805609097500626207482, 709883060492896858206503244398, 731763028320043522180818428312, 752913558861538118254508147385, 773313568811336145198437387412, 792942722999308893908499502774, 811781454661989134683012382925, 829810984947430565029049617167, 847013341634774147299139968968, 863371377049917044434898377960, 878868785159513850270077233162, 893490117826414215002244712778, 907220800210573568237880375241, 920047145300500218715130281872, 931956367561496964361650357642, 942936595688479410294659489983, 952976884453373502575668035664, 962067225640901942739071328600, 970198558074290215480729887888, 977362776750705944569794030883, 983552741156280012965562202054, 988762282989873612510341854823, 992986214133112277329634210292, 996220338673088608562895261938, 998461493835841338972881273993, 999707943952169355863583849420]]

end GaussQuad.LegendreRoots

/-!
GENERATED by `/verif/tools/gen_legendre_data.py` from `/repo/src/legendre/bogaert/data.rs`; do not edit.
Each `f64` literal `x` of the source appears as the exact integer `x * 10^20`.
-/

namespace GaussQuad.LegendreData

/-- `JZ`, /repo/src/legendre/bogaert/data.rs l.6 (literals times 10^20) -/
def JZ : List Int := [240482555769577300000, 552007811028631100000, 865372791291101300000, 1179153443901428100000, 1493091770848778700000, 1807106396791092400000, 2121163662987926000000, 2435247153074930200000, 2749347913204025300000, 3063460646843197600000, 3377582021357357000000, 3691709835366404500000, 4005842576462824000000, 4319979171317673000000, 4634118837166181500000, 4948260989739781500000, 5262405184111500000000, 5576551075501998000000, 5890698392608094000000, 6204846919022716600000]

/-- `J1`, /repo/src/legendre/bogaert/data.rs l.8 (literals times 10^20) -/
def J1 : List Int := [26951412394191690000, 11578013858220369000, 7368635113640822000, 5403757319811628000, 4266142901724309000, 3524210349099610000, 3002107010305467300, 2614739149530809000, 2315912182469139300, 2078382912226786000, 1885045066931767000, 1724615756966500800, 1589351810592360000, 1473762609647219000, 1373846514538711700, 1286618173761513300, 1209805154862679700, 1141647122449160900, 1080759279118020400, 1026037292628076200, 976589713979105100]

/-- `EVEN_THETA_ZERO_1`, /repo/src/legendre/bogaert/data.rs l.12 (literals times 10^20) -/
def EVEN_THETA_ZERO_1 : List Int := [95531661812450930000]

/-- `EVEN_THETA_ZERO_2`, /repo/src/legendre/bogaert/data.rs l.13 (literals times 10^20) -/
def EVEN_THETA_ZERO_2 : List Int := [122389958647037260000, 53329568024912700000]

/-- `EVEN_THETA_ZERO_3`, /repo/src/legendre/bogaert/data.rs l.14 (literals times 10^20) -/
def EVEN_THETA_ZERO_3 : List Int := [132985261238811030000, 84836662648748760000, 36960665194482895000]

/-- `EVEN_THETA_ZERO_4`, /repo/src/legendre/bogaert/data.rs l.15 (literals times 10^20) -/
def EVEN_THETA_ZERO_4 : List Int := [138631707889213130000, 101745553949015340000, 64903658046077960000, 28275706359379676000]

/-- `EVEN_THETA_ZERO_5`, /repo/src/legendre/bogaert/data.rs l.16 (literals times 10^20) -/
def EVEN_THETA_ZERO_5 : List Int := [142136649843952500000, 112253932763170950000, 82383865899975560000, 52551965552850010000, 22894429884702602000]

/-- `EVEN_THETA_ZERO_6`, /repo/src/legendre/bogaert/data.rs l.17 (literals times 10^20) -/
def EVEN_THETA_ZERO_6 : List Int := [144523323847144010000, 119412037594770660000, 94305528706057360000, 69210769888184100000, 44148708148933175000, 19233467930466722000]

/-- `EVEN_THETA_ZERO_7`, /repo/src/legendre/bogaert/data.rs l.18 (literals times 10^20) -/
def EVEN_THETA_ZERO_7 : List Int := [146252999292148200000, 124600358677667770000, 102949859252513680000, 81304070553894550000, 59668776081727340000, 38061893066667750000, 16581714115236640000]

/-- `EVEN_THETA_ZERO_8`, /repo/src/legendre/bogaert/data.rs l.19 (literals times 10^20) -/
def EVEN_THETA_ZERO_8 : List Int := [147564028080819430000, 128533144432296530000, 109503340180344440000, 90475753238951650000, 71452525323402520000, 52438664090359410000, 33449863868762920000, 14572468200367383000]

/-- `EVEN_THETA_ZERO_9`, /repo/src/legendre/bogaert/data.rs l.20 (literals times 10^20) -/
def EVEN_THETA_ZERO_9 : List Int := [148591944039265300000, 131616749471802260000, 114642148105664220000, 97668711044398330000, 80697389307881950000, 63730050587061910000, 46771131453282860000, 29834607820923250000, 12997473641967683000]

/-- `EVEN_THETA_ZERO_10`, /repo/src/legendre/bogaert/data.rs l.21 (literals times 10^20) -/
def EVEN_THETA_ZERO_10 : List Int := [149419491431039960000, 134099317858995510000, 118779492663409880000, 103460329759010430000, 88142307428901360000, 72826258486960730000, 57513850263142850000, 42209073011111660000, 26924528802893020000, 11729692770595614000]

/-- `EVEN_THETA_ZERO_11`, /repo/src/legendre/bogaert/data.rs l.22 (literals times 10^20) -/
def EVEN_THETA_ZERO_11 : List Int := [150100039913081600000, 136140922566437220000, 122182020899035980000, 108223519811183680000, 94265682737966080000, 80308929570633590000, 66354007544480630000, 52402427094872820000, 38457817035839110000, 24531653899836128000, 10687233579852600000]

/-- `EVEN_THETA_ZERO_12`, /repo/src/legendre/bogaert/data.rs l.23 (literals times 10^20) -/
def EVEN_THETA_ZERO_12 : List Int := [150669554555810100000, 137849442750621920000, 125029470341727300000, 112209752326725080000, 99390444229894550000, 86571777704010810000, 73754130754375360000, 60938183824495660000, 48125319513136866000, 35318866756907810000, 22529362263530758000, 9814932949793685000]

/-- `EVEN_THETA_ZERO_13`, /repo/src/legendre/bogaert/data.rs l.24 (literals times 10^20) -/
def EVEN_THETA_ZERO_13 : List Int := [151153154670328930000, 139300228617980800000, 127447395942449400000, 115594731379381200000, 103742331907743910000, 91890334455989930000, 80038948033532960000, 68188518141292990000, 56339670731692940000, 44493681521191303000, 32653626111653583000, 20829244255984664000, 9074274842993199000]

/-- `EVEN_THETA_ZERO_14`, /repo/src/legendre/bogaert/data.rs l.25 (literals times 10^20) -/
def EVEN_THETA_ZERO_14 : List Int := [151568914955728100000, 140547500306234860000, 129526150129231600000, 118504914788902150000, 107483857491786930000, 96463063712854410000, 85442657183922540000, 74422829451113580000, 63403899545843010000, 52386447688256800000, 41371658573696380000, 30362390709143340000, 19367699299473762000, 8437551461511597000]

/-- `EVEN_THETA_ZERO_15`, /repo/src/legendre/bogaert/data.rs l.26 (literals times 10^20) -/
def EVEN_THETA_ZERO_15 : List Int := [151930172927452660000, 141631268223074170000, 131332409204579470000, 121033630862447650000, 110734975922845910000, 100436500153908100000, 90138280876671560000, 79840431701212360000, 69543130002993670000, 59246672578873860000, 48951600508969700000, 38659019878605050000, 28371600957934670000, 18097804499172720000, 7884320726554946000]

/-- `EVEN_THETA_ZERO_16`, /repo/src/legendre/bogaert/data.rs l.27 (literals times 10^20) -/
def EVEN_THETA_ZERO_16 : List Int := [152246985264152920000, 142581701196382540000, 132916450239108070000, 123251257341636290000, 113586152284029370000, 103921172806895170000, 94256369400467780000, 84591813158379940000, 74927609511814140000, 65263923945945610000, 55601034180053030000, 45939447307620956000, 36280200753500280000, 26625799947238600000, 16984184542821500000, 7399171309970960000]

/-- `EVEN_THETA_ZERO_17`, /repo/src/legendre/bogaert/data.rs l.28 (literals times 10^20) -/
def EVEN_THETA_ZERO_17 : List Int := [152527078061719430000, 143421976804540960000, 134316900021743600000, 125211865906244450000, 116106895762915770000, 107002015929147500000, 97897260597891030000, 88792676239881200000, 79688328937484150000, 70584317275098400000, 61480796529261010000, 52378027796947300000, 43276488324482343000, 34177155002667176000, 25082387672882240000, 15999665426683277000, 6970264809814095000]

/-- `EVEN_THETA_ZERO_18`, /repo/src/legendre/bogaert/data.rs l.29 (literals times 10^20) -/
def EVEN_THETA_ZERO_18 : List Int := [152776484926174040000, 144170195434906480000, 135563924352265500000, 126957685206376850000, 118351493585155070000, 109745368355581260000, 101139333394902700000, 92533420198128670000, 83927672013224760000, 75322150739776230000, 66716949087881980000, 58112213423507050000, 49508190189930745000, 40905330179720073000, 32304556487299880000, 23708099409979370000, 15123028025376250000, 6588357082399222000]

/-- `EVEN_THETA_ZERO_19`, /repo/src/legendre/bogaert/data.rs l.30 (literals times 10^20) -/
def EVEN_THETA_ZERO_19 : List Int := [152999986322320660000, 144840698212484180000, 136681424165148880000, 128522174414373170000, 120362960590495270000, 112203796517375200000, 104044699310762350000, 95885690977308960000, 87726800855161520000, 79568069510620130000, 71409555260316600000, 63251345684482220000, 55093579274600050000, 46936489434754225000, 38780503330152016000, 30626495915118970000, 22476581460336864000, 14337461678188496000, 6246124541276674000]

/-- `EVEN_THETA_ZERO_20`, /repo/src/legendre/bogaert/data.rs l.31 (literals times 10^20) -/
def EVEN_THETA_ZERO_20 : List Int := [153201418827976290000, 145444994697726850000, 137688581460148260000, 129932186976487650000, 122175820074747520000, 114419491084624750000, 106663212555293980000, 98907000269721870000, 91150874742259320000, 83394863521587990000, 75639004881748080000, 67883354011939770000, 60127993953126850000, 52373056170227560000, 44618762375418103000, 36865518491195565000, 29114156130851590000, 21366685036946806000, 13629475873122250000, 5937690028966412000]

/-- `EVEN_THETA_ZERO_21`, /repo/src/legendre/bogaert/data.rs l.32 (literals times 10^20) -/
def EVEN_THETA_ZERO_21 : List Int := [153383897119386430000, 145992428805644500000, 138600969035499700000, 131209523930527670000, 123818100294453600000, 116426705980379670000, 109035350372189770000, 101644045047206740000, 94252804726514690000, 86861648689554680000, 79470602958952040000, 72079703810188230000, 64689003664037210000, 57298581503636590000, 49908562474649460000, 42519157737243790000, 35130754004859815000, 27744143659143360000, 20361241779257935000, 12988119160615158000, 5658282534660210400]

/-- `EVEN_THETA_ZERO_22`, /repo/src/legendre/bogaert/data.rs l.33 (literals times 10^20) -/
def EVEN_THETA_ZERO_22 : List Int := [153549976126407730000, 146490665249452160000, 139431361150010940000, 132372068653852430000, 125312793076339100000, 118253540479698000000, 111194318003386860000, 104135134308367430000, 97076000198057730000, 90016929516675100000, 82957940492979560000, 75899057821143290000, 68840316008077360000, 61781764997325370000, 54723480114934520000, 47665580786247600000, 40608268594776203000, 33551912795170940000, 26497270084854657000, 19446169407381564000, 12404408660434993000, 5403988657613871500]

/-- `EVEN_THETA_ZERO_23`, /repo/src/legendre/bogaert/data.rs l.34 (literals times 10^20) -/
def EVEN_THETA_ZERO_23 : List Int := [153701771360881000000, 146946050512422670000, 140190335096236460000, 133434628959050540000, 126678936304440000000, 119923261876373500000, 113167611190610560000, 106411990839470260000, 99656408908150350000, 92900875562034990000, 86145403900911030000, 79390011240535860000, 72634721100482450000, 65879566404635870000, 59124594860862270000, 52369878477178380000, 45615531471933920000, 38861746694444330000, 32108877458964785000, 25357647863146170000, 18609808137763426000, 11870906769241313000, 5171568198966902000]

/-- `EVEN_THETA_ZERO_24`, /repo/src/legendre/bogaert/data.rs l.35 (literals times 10^20) -/
def EVEN_THETA_ZERO_24 : List Int := [153841049485819050000, 147363884547216600000, 140886724003922280000, 134409570953350870000, 127932428756677960000, 121455301171952900000, 114978192519171850000, 108501107893666580000, 102024053451670430000, 95547036804224050000, 89070067576083070000, 82593158221348560000, 76116325249465880000, 69639591128876580000, 63162987353711440000, 56686559600108270000, 50210376848706940000, 43734548555222963000, 37259259568338965000, 30784848588416170000, 24312009812649993000, 17842421260435368000, 11381402585148331000, 4958315373802413000]

/-- `EVEN_THETA_ZERO_25`, /repo/src/legendre/bogaert/data.rs l.36 (literals times 10^20) -/
def EVEN_THETA_ZERO_25 : List Int := [153969297371670840000, 147748627939450230000, 141527962094441030000, 135307302353794270000, 129086651432128100000, 122866012339507960000, 116645388501165860000, 110424783909673800000, 104204203324854320000, 97983652544032350000, 91763138777125920000, 85542671180818270000, 79322261639768010000, 73101925942315600000, 66881685607308050000, 60661570828145430000, 54441625423890490000, 48221915599639310000, 42002546436369864000, 35783695425368595000, 29565687819226055000, 23349190290832927000, 17135814374973973000, 10930669023358229000, 4761952998197036000]

/-- `EVEN_THETA_ZERO_26`, /repo/src/legendre/bogaert/data.rs l.37 (literals times 10^20) -/
def EVEN_THETA_ZERO_26 : List Int := [154087775374008040000, 148104061737374140000, 142120351051865670000, 136136645380432290000, 130152946935604440000, 124169258152593560000, 118185581777426460000, 112201920977275040000, 106218279482987970000, 100234661778300740000, 94251073357299340000, 88267521083192780000, 82284013700473820000, 76300562584998110000, 70317182873764280000, 64333895221195540000, 58350728630234270000, 52367725214164530000, 46384948622684330000, 40402499903089100000, 34420549756801100000, 28439411019557790000, 22459724942810520000, 16483041647470500000, 10514275441466000000, 4580550859172368000]

/-- `EVEN_THETA_ZERO_27`, /repo/src/legendre/bogaert/data.rs l.38 (literals times 10^20) -/
def EVEN_THETA_ZERO_27 : List Int := [154197558884262190000, 148433412101855660000, 142669267765235900000, 136905127578307150000, 131140993359511500000, 125376867097043800000, 119612751014622630000, 113848647652691250000, 108084559971732200000, 102320491487172280000, 96556446449700430000, 90792430091688230000, 85028448971482640000, 79264511465683130000, 73500628490787110000, 67736814590749230000, 61973089628170250000, 56209481510954230000, 50446030778921990000, 44682798720275090000, 38919882650383390000, 33157446984315053000, 27395793057005260000, 21635538568591940000, 15878176737494804000, 10128441516948394000, 4412462056235422000]

/-- `EVEN_THETA_ZERO_28`, /repo/src/legendre/bogaert/data.rs l.39 (literals times 10^20) -/
def EVEN_THETA_ZERO_28 : List Int := [154299571058254900000, 148739448490474670000, 143179327963566940000, 137619210895023940000, 132059098790922260000, 126498993288103150000, 120938896203868400000, 115378809596564810000, 109818735841603290000, 104258677729240300000, 98698638593172830000, 93138622483210550000, 87578634401927660000, 82018680635897610000, 76458769229815460000, 70898910681984500000, 65339118992858320000, 59779413295922580000, 54219820487455400000, 48660379650458900000, 43101149883536940000, 37542225038604990000, 31983763693316020000, 26426056499587475000, 20869699276881010000, 15316132372616290000, 9769922156300583000, 4256272861907242600]

/-- `EVEN_THETA_ZERO_29`, /repo/src/legendre/bogaert/data.rs l.40 (literals times 10^20) -/
def EVEN_THETA_ZERO_29 : List Int := [154394608833110160000, 149024561707243270000, 143654516295217130000, 138284473784127560000, 132914435430218950000, 127544402591444280000, 122174376765445650000, 116804359635324450000, 111434353126345730000, 106064359477878710000, 100694381336618480000, 95324421879777680000, 89954484981017640000, 84584575438308850000, 79214699293252430000, 73844864288495070000, 68475080539015450000, 63105361544457590000, 57735725763946240000, 52366199155674290000, 46996819449358573000, 41627643707265340000, 36258762557898600000, 30890329143592110000, 25522624166435315000, 20156223063849718000, 14792516929667080000, 9435916010280740000, 4110762866287674000]

/-- `EVEN_THETA_ZERO_30`, /repo/src/legendre/bogaert/data.rs l.41 (literals times 10^20) -/
def EVEN_THETA_ZERO_30 : List Int := [154483363785166540000, 149290826475638830000, 144098290613865080000, 138905757200158030000, 133713227289273500000, 128520702015787670000, 123328182623429840000, 118135670500059660000, 112943167220495890000, 107750674600171140000, 102558194763722920000, 97365730234325820000, 92173284052135480000, 86980859934167280000, 81788462494145380000, 76596097550861930000, 71403772570124620000, 66211497313555260000, 61019284817202430000, 55827152914076550000, 50635126689592820000, 45443242612623070000, 40251555846426500000, 35060154011681340000, 29869185177035096000, 24678920754694572000, 19489917149567080000, 14303519460115640000, 9123992133264713000, 3974873026126591500]

/-- `EVEN_THETA_ZERO_31`, /repo/src/legendre/bogaert/data.rs l.42 (literals times 10^20) -/
def EVEN_THETA_ZERO_31 : List Int := [154566438984168570000, 149540052000686850000, 144513666246963330000, 139487282570786100000, 134460901863153160000, 129434525078228410000, 124408153256216640000, 119381787550376030000, 114355429259740300000, 109329079869637800000, 104302741102849180000, 99276414985351340000, 94250103932243610000, 89223810861940020000, 84197539350540360000, 79171293844311130000, 74145079957892150000, 69118904901857200000, 64092778110539880000, 59066712189147690000, 54040724387416820000, 49014838976342330000, 43989091246915140000, 38963534586998183000, 33938253803852250000, 28913392218919500000, 23889212550717798000, 18866253391247775000, 13845816788701817000, 8832030722827103000, 3847679847963677000]

/-- `EVEN_THETA_ZERO_32`, /repo/src/legendre/bogaert/data.rs l.43 (literals times 10^20) -/
def EVEN_THETA_ZERO_32 : List Int := [154644362712526550000, 149773823126390940000, 144903284590263140000, 140032747826539120000, 135162213592166900000, 130291682694470250000, 125421156009148360000, 120550634501341700000, 115680119250898070000, 110809611483324950000, 105939112608421660000, 101068624269321400000, 96198148405750530000, 91327687336912640000, 86457243871818420000, 81586821458595580000, 76716424390145590000, 71846058092900700000, 66975729540951210000, 62105447864251430000, 57235225266232840000, 52365078451647800000, 47495030929500640000, 42625116887703460000, 37755388050436690000, 32885926587507940000, 28016871368937540000, 23148476959988526000, 18281265245634634000, 13416497894680912000, 8558174883654483000, 3728374374031613000]

/-- `EVEN_THETA_ZERO_33`, /repo/src/legendre/bogaert/data.rs l.44 (literals times 10^20) -/
def EVEN_THETA_ZERO_33 : List Int := [154717599709461480000, 149993534067918160000, 145269469327270630000, 140545406106176900000, 135821345051118430000, 131097286849044430000, 126373232241653780000, 121649182041972410000, 116925137154054020000, 112201098596875400000, 107477067533845340000, 102753045309843150000, 98029033498420060000, 93305033962845440000, 88581048936232630000, 83857081128323350000, 79133133870111390000, 74409211313145110000, 69685318709453370000, 64961462813090190000, 60237652469937050000, 55513899507620900000, 50790220120328950000, 46066637102402830000, 41343183606396705000, 36619909794143490000, 31896895357813787000, 27174274984854020000, 22452295578717027000, 17731463323239693000, 13013001937547808000, 8300791095077070000, 3616244959900389400]

/-- `EVEN_THETA_ZERO_34`, /repo/src/legendre/bogaert/data.rs l.45 (literals times 10^20) -/
def EVEN_THETA_ZERO_34 : List Int := [154786560445777770000, 150200416235735720000, 145614272802190370000, 141028130677468470000, 136441990416449820000, 131855852606744100000, 127269717880111520000, 122683586925617760000, 118097460505135100000, 113511339471970900000, 108925224793646660000, 104339117580191120000, 99753019119796390000, 95166930924384470000, 90580854788650980000, 85994792867662510000, 81408747780359970000, 76822722749818210000, 72236721796606440000, 67650750010433800000, 63064813939875970000, 58478922164874330000, 53893086160597910000, 49307321641761326000, 44721650730947330000, 40136105606890440000, 35550734961307684000, 30965616154343050000, 26380879935977936000, 21796765996077490000, 17213765734961659000, 12633067138814497000, 8058436603519718000, 3510663068970053000]

/-- `EVEN_THETA_ZERO_35`, /repo/src/legendre/bogaert/data.rs l.46 (literals times 10^20) -/
def EVEN_THETA_ZERO_35 : List Int := [154851608820256410000, 150395561324657800000, 145939514501219030000, 141483468810022270000, 137027424729544140000, 132571382764902150000, 128115343457053620000, 123659307393316900000, 119203275219671100000, 114747247655410840000, 110291225510902760000, 105835209709426330000, 101379201314415310000, 96923201563889290000, 92467211914544180000, 88011234098963010000, 83555270200875180000, 79099322755604640000, 74643394886246940000, 70187490491453590000, 65731614509291800000, 61275773295844950000, 56819975181408610000, 52364231309790950000, 47908556944445130000, 43452973575235960000, 38997512463187830000, 34542220914109850000, 30087174089177740000, 25632499025009190000, 21178428607821080000, 16725440293814160000, 12274688364193373000, 7829832364814668000, 3411071484766340000]

/-- `EVEN_THETA_ZERO_36`, /repo/src/legendre/bogaert/data.rs l.47 (literals times 10^20) -/
def EVEN_THETA_ZERO_36 : List Int := [154913068582394600000, 150579940581966420000, 146246813165747040000, 141913686733046140000, 137580561698263900000, 133247438497615530000, 128914317596591290000, 124581199498432720000, 120248084753969040000, 115914973973243570000, 111581867839480790000, 107248767126111160000, 102915672717802550000, 98582585636772610000, 94249507076117020000, 89916438442551340000, 85583381411928460000, 81250338002321460000, 76917310671613280000, 72584302449840310000, 68251317121728960000, 63918359483216860000, 59585435709556330000, 55252553896120240000, 50919724874507470000, 46586963482606890000, 42254290613213136000, 37921736660959066000, 33589347622850085000, 29257196583016254000, 24925407070151795000, 20594205542731864000, 16264056282668870000, 11936081726228538000, 7613840464754681000, 3316974474186059000]

/-- `EVEN_THETA_ZERO_37`, /repo/src/legendre/bogaert/data.rs l.48 (literals times 10^20) -/
def EVEN_THETA_ZERO_37 : List Int := [154971228720788280000, 150754420972486260000, 146537613733901570000, 142320807352970280000, 138104002190076520000, 133887198623569130000, 129670397055849860000, 125453597920249130000, 121236801688950100000, 117020008882285340000, 112803220079816180000, 108586435933723660000, 104369657185203750000, 100152884684785380000, 95936119417807790000, 91719362536742320000, 87502615402689880000, 83285879639323010000, 79069157203932520000, 74852450482331930000, 70635762417590750000, 66419096687619700000, 62202457954760370000, 57985852223966460000, 53769287369055550000, 49552773926873667000, 45336326333234840000, 41119964916514940000, 36903719252026360000, 32687634098760080000, 28471780575806743000, 24256278892741570000, 20041349425846020000, 15827443990496567000, 11615654888185546000, 7409445176394482000, 3227929535095246000]

/-- `EVEN_THETA_ZERO_38`, /repo/src/legendre/bogaert/data.rs l.49 (literals times 10^20) -/
def EVEN_THETA_ZERO_38 : List Int := [155026348006416040000, 150919778808380810000, 146813210056687570000, 142706642055641850000, 138600075119871300000, 134493509578876510000, 130386945782029850000, 126280384104188300000, 122173824952121280000, 118067268771999110000, 113960716058250800000, 109854167364185900000, 105747623314890780000, 101641084623070090000, 97534552108725280000, 93428026723871270000, 89321509583931240000, 85215002008076850000, 81108505571696910000, 77002022175530820000, 72895554138042630000, 68789104320745100000, 64682676301103500000, 60576274615565420000, 56469905108346980000, 52363575443898760000, 48257295880282974000, 44151080472778780000, 40044949015335950000, 35938930307235920000, 31833067934609780000, 27727431154653526000, 23622137031748240000, 19517400178361022000, 15413660595512307000, 11311982025898790000, 7215736988593890000, 3143540438351455000]

/-- `EVEN_THETA_ZERO_39`, /repo/src/legendre/bogaert/data.rs l.50 (literals times 10^20) -/
def EVEN_THETA_ZERO_39 : List Int := [155078658841515240000, 151076711295739740000, 147074764142158300000, 143072817647859290000, 139070872088532500000, 135068927752243460000, 131066984943560460000, 127065043988164830000, 123063105238098160000, 119061169077835900000, 115059235931421440000, 111057306270957700000, 107055380626836330000, 103053459600200340000, 99051543878289850000, 95049634253539420000, 91047731647594990000, 87045837141847270000, 83043952016690240000, 79042077802605200000, 75040216347490750000, 71038369906645840000, 67036541264867460000, 63034733904919560000, 59032952244344320000, 55031201975338180000, 51029490564139830000, 47027828004684147000, 43026227991524920000, 39024709811809170000, 35023301528697365000, 31022045615569765000, 27021009562927920000, 23020307450533073000, 19020148421029150000, 15020961263362212000, 11023782616908209000, 7031899075931525000, 3063451333411226400]

/-- `EVEN_THETA_ZERO_40`, /repo/src/legendre/bogaert/data.rs l.51 (literals times 10^20) -/
def EVEN_THETA_ZERO_40 : List Int := [155128370534796820000, 151225846360191100000, 147323322531328470000, 143420799283418620000, 139518276858872330000, 135615755510447420000, 131713235504674580000, 127810717125665000000, 123908200679420320000, 120005686498790440000, 116103174949258860000, 112200666435781170000, 108298161410962730000, 104395660384944770000, 100493163937479000000, 96590672732824600000, 92688187538310830000, 88785709247705020000, 84883238910941030000, 80980777772361230000, 77078327320495300000, 73175889353684930000, 69273466067802510000, 65371060175289710000, 61468675069417570000, 57566315055193650000, 53663985680775280000, 49761694224433445000, 45859450429467250000, 41957267647971940000, 38055164685795334000, 34153168906855940000, 30251321727359890000, 26349688959170087000, 22448381845988236000, 18547604332670947000, 14647774553440684000, 10749903391307948000, 6857195785426973000, 2987341732561906600]

/-- `EVEN_THETA_ZERO_41`, /repo/src/legendre/bogaert/data.rs l.52 (literals times 10^20) -/
def EVEN_THETA_ZERO_41 : List Int := [155175672100331540000, 151367751043535480000, 147559830292481500000, 143751910054965410000, 139943990544838700000, 136136071984643040000, 132328154608468250000, 128520238665114150000, 124712324421650680000, 120904412167489440000, 117096502219105840000, 113288594925584140000, 109480690675203070000, 105672789903339350000, 101864893102047870000, 98057000831785490000, 94249113735895520000, 90441232558675540000, 86633358168138940000, 82825491584987380000, 79017634019894430000, 75209786922049630000, 71401952043167300000, 67594131523056570000, 63786328005753920000, 59978544799783370000, 56170786103449530000, 52363057328201870000, 48555365573780130000, 44747720345300684000, 40940134669285850000, 37132626893884390000, 33325223717924790000, 29517965551931840000, 25710916610742274000, 21904185439717355000, 18097971038143018000, 14292681402301640000, 10489302907803234000, 6690962797843650000, 2914922224685900800]

/-- `EVEN_THETA_ZERO_42`, /repo/src/legendre/bogaert/data.rs l.53 (literals times 10^20) -/
def EVEN_THETA_ZERO_42 : List Int := [155220734659013630000, 151502938708118420000, 147785143028392800000, 144067347803969970000, 140349553224096920000, 136631759485350900000, 132913966794034800000, 129196175368816270000, 125478385443683840000, 121760597271310300000, 118042811126930100000, 114325027312864910000, 110607246163863440000, 106889468053466400000, 103171693401666480000, 99453922684211760000, 95736156444008290000, 92018395305222890000, 88300639990889030000, 84582891345099150000, 80865150361264250000, 77147418218490860000, 73429696328954490000, 69711986400374070000, 65994290519539130000, 62276611265678010000, 58558951866910620000, 54841316420196360000, 51123710207033100000, 47406140157345930000, 43688615549591514000, 39971149100363760000, 36253758721997775000, 32536470479922670000, 28819323826784530000, 25102381456179690000, 21385749343039200000, 17669621775357833000, 13954397091540102000, 10241038320052219000, 6532598686141261000, 2845930797694291500]

/-- `EVEN_THETA_ZERO_43`, /repo/src/legendre/bogaert/data.rs l.54 (literals times 10^20) -/
def EVEN_THETA_ZERO_43 : List Int := [155263713506915600000, 151631875241879820000, 148000037218029170000, 144368199598999180000, 140736362552761270000, 137104526253495300000, 133472690883606580000, 129840856635938670000, 126209023716241190000, 122577192345962540000, 118945362765452310000, 115313535237677200000, 111681710052578590000, 108049887532233610000, 104418068037024500000, 100786251973078560000, 97154439801318750000, 93522632048569110000, 89890829321301820000, 86259032322809680000, 82627241874861630000, 78995458945288040000, 75363684683497680000, 71731920466738910000, 68100167961114420000, 64468429203163410000, 60836706710596110000, 57205003635117980000, 53573323977281730000, 49941672894877753000, 46310057156088650000, 42678485823398400000, 39046971317997900000, 35415531136744416000, 31784190741130774000, 28152988670383690000, 24521986167362140000, 20891286755580413000, 17261080229747872000, 13631755717132493000, 10004253978813230000, 6381557644960652000, 2780129671121636000]

/-- `EVEN_THETA_ZERO_44`, /repo/src/legendre/bogaert/data.rs l.55 (literals times 10^20) -/
def EVEN_THETA_ZERO_44 : List Int := [155304749903221850000, 151754984422143260000, 148205219156158250000, 144655454251086100000, 141105689856436540000, 137555926126998100000, 134006163224543770000, 130456401319695030000, 126906640593991550000, 123356881242222130000, 119807123475083930000, 116257367522250890000, 112707613635951540000, 109157862095180880000, 105608113210702910000, 102058367331043800000, 98508624849730960000, 94958886214110260000, 91409151936174740000, 87859422605978050000, 84309698908398400000, 80759981644286330000, 77210271757410150000, 73660570369155550000, 70110878823727930000, 66561198747776300000, 63011532130120850000, 59461881429975150000, 55912249726307660000, 52362640927830250000, 48813060074411757000, 45263513779985010000, 41714010900994150000, 38164563576740210000, 34615188907534130000, 31065911778374100000, 27516769856490130000, 23967822999705840000, 20419172391043397000, 16871003535133486000, 13323696764543402000, 9778171579501174000, 6237343205901608000, 2717302558182235000]

/-- `EVEN_THETA_ZERO_45`, /repo/src/legendre/bogaert/data.rs l.56 (literals times 10^20) -/
def EVEN_THETA_ZERO_45 : List Int := [155343972621115400000, 151872652568266870000, 148401332707736100000, 144930013169806650000, 141458694087914520000, 137987375600000960000, 134516057849960550000, 131044740989218100000, 127573425178472480000, 124102110589651550000, 120630797408131470000, 117159485835284350000, 113688176091432620000, 110216868419306870000, 106745563088128730000, 103274260398470990000, 99802960688089960000, 96331664338979680000, 92860371785971770000, 89389083527304840000, 85917800137723770000, 82446522284857040000, 78975250749882890000, 75503986453866220000, 72032730491679730000, 68561484176196690000, 65090249096587650000, 61619027196277320000, 58147820878767260000, 54676633153689320000, 51205467842146950000, 47734329871461617000, 44263225708286370000, 40792164012275745000, 37321156653435740000, 33850220353186410000, 30379379445634060000, 26908670764669930000, 23438152844410884000, 19967924630940990000, 16498167528530996000, 13029253463859564000, 9562081616094949000, 6099502786102040000, 2657252290854776600]

/-- `EVEN_THETA_ZERO_46`, /repo/src/legendre/bogaert/data.rs l.57 (literals times 10^20) -/
def EVEN_THETA_ZERO_46 : List Int := [155381499297490480000, 151985232590774190000, 148588966056434120000, 145192699811164780000, 141796433974363100000, 138400168669284600000, 135003904024277690000, 131607640174123230000, 128211377261510000000, 124815115438681730000, 121418854869298420000, 118022595730562240000, 114626338215670320000, 111230082536669900000, 107833828927810500000, 104437577649510760000, 101041328993089020000, 97645083286447810000, 94248840900955890000, 90852602259844880000, 87456367848534510000, 84060138227434600000, 80663914047955690000, 77267696072717020000, 73871485201303680000, 70475282503444970000, 67079089262243330000, 63682907031202760000, 60286737710493300000, 56890583650479110000, 53494447794608320000, 50098333880309080000, 46702246727358230000, 43306192661625720000, 39910180154607010000, 36514220818772564000, 33118331013144664000, 29722534544863527000, 26326867450616837000, 22931386998150813000, 19536189993434708000, 16141453917778978000, 12747542655553170000, 9355335943686297000, 5967622944002586000, 2599798753052849000]

/-- `EVEN_THETA_ZERO_47`, /repo/src/legendre/bogaert/data.rs l.58 (literals times 10^20) -/
def EVEN_THETA_ZERO_47 : List Int := [155417437611291160000, 152093047526364030000, 148768657596302710000, 145444267925880320000, 142119878622194420000, 138795489795658540000, 135471101561058200000, 132146714038693110000, 128822327355630950000, 125497941647100840000, 122173557058061590000, 118849173744984320000, 115524791877899150000, 112200411642765570000, 108876033244240200000, 105551656908934070000, 102227282889274100000, 98902911468114670000, 95578542964284650000, 92254177739308670000, 88929816205612220000, 85605458836616190000, 82281106179256800000, 78956758869647350000, 75632417652849440000, 72308083408076820000, 68983757181164130000, 65659440226874080000, 62335134064712790000, 59010840553574500000, 55686561993073450000, 52362301263404850000, 49038062021984770000, 45713848985711830000, 42389668345739720000, 39065528393471255000, 35741440494839105000, 32417420661899490000, 29093492197219940000, 25769690374112836000, 22446071247637500000, 19122729574312747000, 15799839078614067000, 12477755943086756000, 9157341285433676000, 5841325237532701000, 2544777076240816200]

/-- `EVEN_THETA_ZERO_48`, /repo/src/legendre/bogaert/data.rs l.59 (literals times 10^20) -/
def EVEN_THETA_ZERO_48 : List Int := [155451886315335460000, 152196393633378270000, 148940901090868640000, 145685408782091860000, 142429916803338850000, 139174425253759520000, 135918934236269300000, 132663443858526930000, 129407954234003500000, 126152465483166900000, 122896977734808370000, 119641491127544450000, 116386005811532900000, 113130521950450660000, 109875039723791500000, 106619559329555740000, 103364080987421300000, 100108604942508530000, 96853131469881350000, 93597660879965880000, 90342193525120480000, 87086729807659970000, 83831270189731090000, 80575815205564240000, 77320365476802570000, 74064921731856200000, 70809484830577150000, 67554055796049030000, 64298635856011990000, 61043226497516230000, 57787829540015080000, 54532447234592500000, 51277082400921480000, 48021738619824955000, 44766420509684230000, 41511134132612115000, 38255887607470257000, 35000692063955025000, 31745563181617050000, 28490523779441130000, 25235608399078757000, 21980871933238272000, 18726407174005727000, 15472384244808870000, 12219151945674987000, 8967553546914316000, 5720262597323678000, 2492036059421555000]

/-- `EVEN_THETA_ZERO_49`, /repo/src/legendre/bogaert/data.rs l.60 (literals times 10^20) -/
def EVEN_THETA_ZERO_49 : List Int := [155484936142447100000, 152295543110193380000, 149106150203775200000, 145916757508226200000, 142727365110315800000, 139537973099286220000, 136348581567633080000, 133159190611945340000, 129969800333820730000, 126780410840875700000, 123591022247872840000, 120401634677991360000, 117212248264272720000, 114022863151278790000, 110833479497009120000, 107644097475133900000, 104454717277612700000, 101265339117786500000, 98075963234053200000, 94886589894265420000, 91697219401028700000, 88507852098128490000, 85318488378382860000, 82129128693309690000, 78939773565122500000, 75750423601741860000, 72561079515750840000, 69371742148563510000, 66182412501564360000, 62993091776687620000, 59803781429956960000, 56614483243090710000, 53425199420711130000, 50235932724518720000, 47046686661940350000, 43857465756922603000, 40668275947855260000, 37479125188139256000, 34290024380898230000, 31100988886747050000, 27912041060789916000, 24723214742791205000, 21534563710369667000, 18346178871009530000, 15158226893380836000, 11971049494841757000, 8785472823121690000, 5604116141749524600, 2441436781606819500]

/-- `EVEN_THETA_ZERO_50`, /repo/src/legendre/bogaert/data.rs l.61 (literals times 10^20) -/
def EVEN_THETA_ZERO_50 : List Int := [155516670603402370000, 152390746489058240000, 149264822488501660000, 146138898678583920000, 143012975137663110000, 139887051946242180000, 136761129187643800000, 133635206948734120000, 130509285320709130000, 127383364399959540000, 124257444289032380000, 121131525097710320000, 118005606944234720000, 114879689956702260000, 111753774274672350000, 108627860051030440000, 105501947454162080000, 102376036670506920000, 99250127907577650000, 96124221397552030000, 92998317401573890000, 89872416214937430000, 86746518173378670000, 83620623660765050000, 80494733118563890000, 77368847057593810000, 74242966072732310000, 71117090861489050000, 67991222247689200000, 64865361211989160000, 61739508931644640000, 58613666832981600000, 55487836661573330000, 52362020577512420000, 49236221286912296000, 46110442226798687000, 42984687830511830000, 39858963917709006000, 36733278282979000000, 33607641611950645000, 30482068959054565000, 27356582234032456000, 24231214602750462000, 21106018772170484000, 17981083840233145000, 14856573158400607000, 11732821643303372000, 8610639001623935000, 5492592372249737600, 2392851379957687200]

/-- `ODD_THETA_ZERO_1`, /repo/src/legendre/bogaert/data.rs l.63 (literals times 10^20) -/
def ODD_THETA_ZERO_1 : List Int := [68471920300228300000]

/-- `ODD_THETA_ZERO_2`, /repo/src/legendre/bogaert/data.rs l.64 (literals times 10^20) -/
def ODD_THETA_ZERO_2 : List Int := [100217680364312160000, 43663494922552215000]

/-- `ODD_THETA_ZERO_3`, /repo/src/legendre/bogaert/data.rs l.65 (literals times 10^20) -/
def ODD_THETA_ZERO_3 : List Int := [115289295372222740000, 73544661432295200000, 32040509029006200000]

/-- `ODD_THETA_ZERO_4`, /repo/src/legendre/bogaert/data.rs l.66 (literals times 10^20) -/
def ODD_THETA_ZERO_4 : List Int := [124057392340436330000, 91047402922614730000, 58078697950600660000, 25302241661193070000]

/-- `ODD_THETA_ZERO_5`, /repo/src/legendre/bogaert/data.rs l.67 (literals times 10^20) -/
def ODD_THETA_ZERO_5 : List Int := [129787772933145030000, 102500322636957470000, 75225193959908210000, 47985342232567430000, 20904928741374093000]

/-- `ODD_THETA_ZERO_6`, /repo/src/legendre/bogaert/data.rs l.68 (literals times 10^20) -/
def ODD_THETA_ZERO_6 : List Int := [133824767610045450000, 110571806624849000000, 87323660994016300000, 64086632647338680000, 40880023734202120000, 17809445812627656000]

/-- `ODD_THETA_ZERO_7`, /repo/src/legendre/bogaert/data.rs l.69 (literals times 10^20) -/
def ODD_THETA_ZERO_7 : List Int := [136821953699235180000, 116565206560303030000, 96310678213014820000, 76060695728899190000, 55820621091253130000, 35607183033147250000, 15512310697473752000]

/-- `ODD_THETA_ZERO_8`, /repo/src/legendre/bogaert/data.rs l.70 (literals times 10^20) -/
def ODD_THETA_ZERO_8 : List Int := [139135064701528740000, 121190996621146960000, 103248072841723950000, 85307325142585060000, 67370745942425230000, 49443038181949833000, 31538985949292825000, 13739989529925475000]

/-- `ODD_THETA_ZERO_9`, /repo/src/legendre/bogaert/data.rs l.71 (literals times 10^20) -/
def ODD_THETA_ZERO_9 : List Int := [140974233676742900000, 124869122433133930000, 108764652165045500000, 92661341279981890000, 76560076205083400000, 60462617694054510000, 44373166599609520000, 28304975884530680000, 12331086730823128000]

/-- `ODD_THETA_ZERO_10`, /repo/src/legendre/bogaert/data.rs l.72 (literals times 10^20) -/
def ODD_THETA_ZERO_10 : List Int := [142471547517674280000, 127863637524289860000, 113256110101253760000, 98649250558837940000, 84043505201350590000, 69439661101107010000, 54839302818103900000, 40246230990181520000, 25672458374488910000, 11184226514288909000]

/-- `ODD_THETA_ZERO_11`, /repo/src/legendre/bogaert/data.rs l.73 (literals times 10^20) -/
def ODD_THETA_ZERO_11 : List Int := [143714193530352640000, 130348865973558100000, 116983778576283000000, 103619099640446220000, 90255075173478760000, 76892102638236250000, 63530894029768230000, 50172892834142020000, 36821571310082896000, 23487915897025802000, 10232527888726325000]

/-- `ODD_THETA_ZERO_12`, /repo/src/legendre/bogaert/data.rs l.74 (literals times 10^20) -/
def ODD_THETA_ZERO_12 : List Int := [144762039313566700000, 132444519773638670000, 120127157332418120000, 107810056841188000000, 95493363623823210000, 83177297188142760000, 70862218375386110000, 58548779111080120000, 46238306301327575000, 33933997125633714000, 21645974089643394000, 9430083986305520000]

/-- `ODD_THETA_ZERO_13`, /repo/src/legendre/bogaert/data.rs l.75 (literals times 10^20) -/
def ODD_THETA_ZERO_13 : List Int := [145657554170419600000, 134235526083455210000, 122813604346890970000, 111391857228261200000, 99970375398749540000, 88549288699508000000, 77128796907775170000, 65709231670924160000, 54291195137986580000, 42875915776607837000, 31466356626743740000, 20071902665903807000, 8744338280630300000]

/-- `ODD_THETA_ZERO_14`, /repo/src/legendre/bogaert/data.rs l.76 (literals times 10^20) -/
def ODD_THETA_ZERO_14 : List Int := [146431700299156530000, 135783803308006170000, 125135980433488480000, 114488277770866280000, 103840754452029670000, 93193491569159870000, 82546607496715460000, 71900286360370680000, 61254835623830210000, 50610815215630000000, 39969369146669520000, 29333258576194730000, 18711231374980620000, 8151560650977882000]

/-- `ODD_THETA_ZERO_15`, /repo/src/legendre/bogaert/data.rs l.77 (literals times 10^20) -/
def ODD_THETA_ZERO_15 : List Int := [147107582371399740000, 137135557494465900000, 127163585573612230000, 117191698698136400000, 107219936866910650000, 97248353010034970000, 87277021148918490000, 77306050607479580000, 67335612575041950000, 57365993965297280000, 47397718291907337000, 37431856192293295000, 27470992876383277000, 17523320256195085000, 7634046205384429000]

/-- `ODD_THETA_ZERO_16`, /repo/src/legendre/bogaert/data.rs l.78 (literals times 10^20) -/
def ODD_THETA_ZERO_16 : List Int := [147702791129155230000, 138325968234827170000, 128949184005130270000, 119572461367579950000, 110195828222046140000, 100819320401477400000, 91442986264540320000, 82066894276461200000, 72691146305045630000, 63315902548551620000, 53941432142441840000, 44568226790828663000, 35197292730952370000, 25831060410714180000, 16477232316431126000, 7178317184275122000]

/-- `ODD_THETA_ZERO_17`, /repo/src/legendre/bogaert/data.rs l.79 (literals times 10^20) -/
def ODD_THETA_ZERO_17 : List Int := [148230955482569240000, 139382292222654210000, 130533657733583360000, 121685068768235330000, 112836545302460860000, 103988112351195760000, 95139802675792280000, 86291661055240450000, 77443751393836050000, 68596169233743690000, 59749065252476230000, 50902692998667960000, 42057516106472637000, 33214483799949430000, 24375889314480490000, 15549000951789246000, 6773932498157585000]

/-- `ODD_THETA_ZERO_18`, /repo/src/legendre/bogaert/data.rs l.80 (literals times 10^20) -/
def ODD_THETA_ZERO_18 : List Int := [148702798323955100000, 140325974549692220000, 131949172546466140000, 123572404796868130000, 115195685928981150000, 106819033868955350000, 98442471501098370000, 90066029187373650000, 81689748778468220000, 73313690317962290000, 64937943868886500000, 56562651743565970000, 48188053682226320000, 39814588340525900000, 31443154093871234000, 23075921673023720000, 14719771569459897000, 6412678117309945000]

/-- `ODD_THETA_ZERO_19`, /repo/src/legendre/bogaert/data.rs l.81 (literals times 10^20) -/
def ODD_THETA_ZERO_19 : List Int := [149126871810234470000, 141174119091464050000, 133221383095101540000, 125268673283081000000, 117316000579450930000, 109363378123795880000, 101410822324314840000, 93458354403250750000, 85506002765752690000, 77553806790252490000, 69601823179598420000, 61650137178198340000, 53698883667949130000, 45748290052699030000, 37798772601969740000, 29851184046186250000, 21907585064624280000, 13974507651197673000, 6088003363863534600]

/-- `ODD_THETA_ZERO_20`, /repo/src/legendre/bogaert/data.rs l.82 (literals times 10^20) -/
def ODD_THETA_ZERO_20 : List Int := [149510080165105140000, 141940534011019850000, 134371000874862780000, 126801488038935300000, 119232003802890390000, 111662557989168950000, 104093162631045490000, 96523832953069430000, 88954588825339460000, 81385457005352610000, 73816474735703050000, 66247695781261050000, 58679201099474470000, 51111118914617450000, 43543665531510500000, 35977237032996250000, 28412644940605597000, 20851850521771550000, 13301070890656355000, 5794620170990797500]

/-- `ODD_THETA_ZERO_21`, /repo/src/legendre/bogaert/data.rs l.83 (literals times 10^20) -/
def ODD_THETA_ZERO_21 : List Int := [149858058340144400000, 142636489022858460000, 135414929962992340000, 128193386842042400000, 120971866062671340000, 113750375095641480000, 106528922941173400000, 99307520769490690000, 92086182843970500000, 84864927899055620000, 77643781271569260000, 70422778327086350000, 63201970214807680000, 55981434043453960000, 48761292029461395000, 41541750431695335000, 34323187030964180000, 27106375954352030000, 19893188221106575000, 12689555039265932000, 5528212871240371000]

/-- `ODD_THETA_ZERO_22`, /repo/src/legendre/bogaert/data.rs l.84 (literals times 10^20) -/
def ODD_THETA_ZERO_22 : List Int := [150175450859483740000, 143271273047514320000, 136367103406975420000, 129462946424943070000, 122558807108324850000, 115654691226902930000, 108750605629874770000, 101846558675284070000, 94942560833358500000, 88038625561981680000, 81134770618416250000, 74231020092444990000, 67327407678516390000, 60423982174721420000, 53520817208995230000, 46618029543662770000, 39715816297126216000, 32814538576858080000, 25914936420526620000, 19018798548854918000, 12131795411861307000, 5285224511635143500]

/-- `ODD_THETA_ZERO_23`, /repo/src/legendre/bogaert/data.rs l.85 (literals times 10^20) -/
def ODD_THETA_ZERO_23 : List Int := [150466120251719640000, 143852611054103720000, 137239108431525580000, 130625615967093200000, 124012137624331590000, 117398677920584940000, 110785242148685610000, 104171836671515680000, 97558469326574430000, 90945149998549320000, 84331891453647980000, 77718710592651390000, 71105630395661260000, 64492683054194750000, 57879915236753220000, 51267397403950890000, 44655241341058893000, 38043635811409415000, 31432926667177297000, 24823822739864185000, 18218037393369235000, 11621002287916662000, 5062697144246345000]

/-- `ODD_THETA_ZERO_24`, /repo/src/legendre/bogaert/data.rs l.86 (literals times 10^20) -/
def ODD_THETA_ZERO_24 : List Int := [150733304973968440000, 144386979895104070000, 138040660155359560000, 131694348644833650000, 125348048535873400000, 119001763408842880000, 112655497410228700000, 106309255458857720000, 99963043523423300000, 93616869006616240000, 87270741291275960000, 80924672538353310000, 74578678887168050000, 68232782319800890000, 61887013665167960000, 55541417650615540000, 49196061839657435000, 42851053455278860000, 36506573592095520000, 30162954089795400000, 23820875104531286000, 17481980741045353000, 11151483172915021000, 4858150828905664000]

/-- `ODD_THETA_ZERO_25`, /repo/src/legendre/bogaert/data.rs l.87 (literals times 10^20) -/
def ODD_THETA_ZERO_25 : List Int := [150979740552164370000, 144879850578420190000, 138779964976764080000, 132680086099757230000, 126580216512021360000, 120480359082828370000, 114380517100749610000, 108280694420695860000, 102180895658203720000, 96081126453036070000, 89981393835849910000, 83881706751065670000, 77782076822142440000, 71682519503821560000, 65583055872950810000, 59483715514922650000, 53384541378272930000, 47285598364632300000, 41186989498118410000, 35088888808390260000, 28991615218354677000, 22895822442726970000, 16803090712517100000, 10718429767304546000, 4669490825917858000]

/-- `ODD_THETA_ZERO_26`, /repo/src/legendre/bogaert/data.rs l.88 (literals times 10^20) -/
def ODD_THETA_ZERO_26 : List Int := [151207753559270270000, 145335876218239930000, 139464002485244820000, 133592134291418520000, 127720273729068360000, 121848423120769180000, 115976585103755720000, 110104762736515620000, 104232959637308360000, 98361180168745200000, 92489429689547660000, 86617714905880630000, 80746044373333690000, 74874429232475650000, 69002884317095500000, 63131429877301080000, 57260094357395720000, 51388919068439440000, 45517966456607310000, 39647335667718586000, 33777194200689636000, 27907849032843424000, 22039929419382212000, 16174956497729231000, 10317752712537848000, 4494935602951386000]

/-- `ODD_THETA_ZERO_27`, /repo/src/legendre/bogaert/data.rs l.89 (literals times 10^20) -/
def ODD_THETA_ZERO_27 : List Int := [151419335280482000000, 145759039361746880000, 140098746441915310000, 134438458118466200000, 128778176112683380000, 123117902321858420000, 117457638882264080000, 111797388247594380000, 106137153289365350000, 100476937428531080000, 94816744811847890000, 89156580553272790000, 83496451071569340000, 77836364573310870000, 72176331761184000000, 66516366901665570000, 60856489485496210000, 55196726905000850000, 49537118957882670000, 43877725817292200000, 38218643035192360000, 32560032054917790000, 26902188773249580000, 21245719752493360000, 15592091298915153000, 9945952063842375000, 4332960406341033000]

/-- `ODD_THETA_ZERO_28`, /repo/src/legendre/bogaert/data.rs l.90 (literals times 10^20) -/
def ODD_THETA_ZERO_28 : List Int := [151616200009454930000, 146152768579078240000, 140689339657922960000, 135225914576908700000, 129762494762992300000, 124299081779059800000, 118835677371506220000, 113372283528752570000, 107908902555115600000, 102445537166210140000, 96982190614747600000, 91518866859740100000, 86055570798648610000, 80592308592531630000, 75129088131647140000, 69665919718611120000, 64202817098505660000, 58739799061227640000, 53276892025368260000, 47814134385080690000, 42351584202695036000, 36889333690028440000, 31427538659477020000, 25966484701215564000, 20506757266164843000, 15049771646397678000, 9600014792058155000, 4182252607645932400]

/-- `ODD_THETA_ZERO_29`, /repo/src/legendre/bogaert/data.rs l.91 (literals times 10^20) -/
def ODD_THETA_ZERO_29 : List Int := [151799831590597580000, 146520031546202660000, 141240233614318100000, 135960438911122820000, 130680648627973480000, 125400864062208920000, 120121086653513100000, 114841318028118000000, 109561560053899940000, 104281814910571050000, 99002085180886010000, 93722373971389550000, 88442685075245550000, 83163023196003980000, 77883394261332110000, 72603805872551630000, 67324267964480460000, 62044793800612410000, 56765401521344660000, 51486116640778880000, 46206976247280540000, 40928036437350335000, 35649386310024610000, 30371176427900437000, 25093682769820610000, 19817471096790330000, 14543909118238407000, 9277332955453467000, 4041676055113025600]

/-- `ODD_THETA_ZERO_30`, /repo/src/legendre/bogaert/data.rs l.92 (literals times 10^20) -/
def ODD_THETA_ZERO_30 : List Int := [151971520882308670000, 146863409970206260000, 141755300846901470000, 136647194454234720000, 131539091793394700000, 126430993948936380000, 121322902116865400000, 116214817638413730000, 111106742041650080000, 105998677093829660000, 100890624868509170000, 95782587833124080000, 90674568965252420000, 85566571909678610000, 80458601194484790000, 75350662534239960000, 70242763264627530000, 65134912980578940000, 60027124498874270000, 54919415355833910000, 49811810222760183000, 44704344969751850000, 39597073857701020000, 34490083077487370000, 29383518285359810000, 24277646475813236000, 19173015002307012000, 14070947088007504000, 8975637836633630000, 3910242380354419400]

/-- `ODD_THETA_ZERO_31`, /repo/src/legendre/bogaert/data.rs l.93 (literals times 10^20) -/
def ODD_THETA_ZERO_31 : List Int := [152132396142270050000, 147185160359042200000, 142237926098684950000, 137290694160479850000, 132343465390930800000, 127396240702659050000, 122449021096305580000, 117501807686613360000, 112554601734215630000, 107607404685168230000, 102660218221009460000, 97713044323223020000, 92765885357603360000, 87818744186473160000, 82871624320473070000, 77924530127567610000, 72977467126444850000, 68030442407248080000, 63083465249431590000, 58136548053887400000, 53189707793329630000, 48242968351540555000, 43296364459086983000, 38349948658707520000, 33403804417999420000, 28458072797485445000, 23513012374709608000, 18569153256469910000, 13627776983191350000, 8692946525012055000, 3787087726949234000]

/-- `ODD_THETA_ZERO_32`, /repo/src/legendre/bogaert/data.rs l.94 (literals times 10^20) -/
def ODD_THETA_ZERO_32 : List Int := [152283447847235860000, 147487263660513830000, 142691080776828440000, 137894899878105530000, 133098721684122470000, 128302546967496860000, 123506376570922300000, 118710211427507370000, 113914052585318300000, 109117901237575960000, 104321758760460480000, 99525626761203700000, 94729507140212230000, 89933402172540780000, 85137314616413380000, 80341247860146940000, 75545206124576030000, 70749194747321650000, 65953220590526570000, 61157292639715040000, 56361422907343640000, 51565627838799180000, 46769930580129540000, 41974364793508340000, 37178981409871740000, 32383861341161570000, 27589141334057920000, 22795072064314245000, 18002167446370065000, 13211669884398416000, 8427518284958235000, 3671453742186897600]

/-- `ODD_THETA_ZERO_33`, /repo/src/legendre/bogaert/data.rs l.95 (literals times 10^20) -/
def ODD_THETA_ZERO_33 : List Int := [152425549101357680000, 147771466078495270000, 143117384175865280000, 138463303978178700000, 133809226100696570000, 129155151201212480000, 124501079993730000000, 119847013264467050000, 115192951890990720000, 110538896865528270000, 105884849323844200000, 101230810581565130000, 96576782180541270000, 91922765948868020000, 87268764079721680000, 82614779236472810000, 77960814695090500000, 73306874540425330000, 68652963941930100000, 63999089549204670000, 59345260073015740000, 54691487161991440000, 50037786766885620000, 45384181341050917000, 40730703542794860000, 36077402787888230000, 31424357585107280000, 26771700623899447000, 22119675147395676000, 17468779838078743000, 12820220283834800000, 8177818680168765000, 3562671947817428000]

/-- `ODD_THETA_ZERO_34`, /repo/src/legendre/bogaert/data.rs l.96 (literals times 10^20) -/
def ODD_THETA_ZERO_34 : List Int := [152559472521477080000, 148039312843204570000, 143519154132308560000, 138998996892495970000, 134478841652290780000, 129958688974682800000, 125438539468066200000, 120918393798939520000, 116398252706960000000, 111878117023115480000, 107357987692015500000, 102837865799641270000, 98317752608372110000, 93797649601796570000, 89277558542820490000, 84757481550073480000, 80237421199858480000, 75717380664337090000, 71197363902058720000, 66677375925654600000, 62157423185918930000, 57637514136037140000, 53117660082988760000, 48597876512496220000, 44078185226125340000, 39558617937055050000, 35039222633986340000, 30520075561673443000, 26001305586620510000, 21483148947845560000, 16966089973220340000, 12451299553892700000, 7942489891978154000, 3460150809198017000]

/-- `ODD_THETA_ZERO_35`, /repo/src/legendre/bogaert/data.rs l.97 (literals times 10^20) -/
def ODD_THETA_ZERO_35 : List Int := [152685904289058950000, 148292176314840370000, 143898449179516460000, 139504723318925250000, 135110999189187800000, 130717277274530460000, 126323558096096900000, 121929842222105080000, 117536130279791660000, 113142422969706580000, 108748721083088800000, 104355025523288720000, 99961337332531910000, 95567657725785360000, 91173988134159570000, 86780330261256620000, 82386686157322480000, 77993058318242940000, 73599449819774580000, 69205864502666290000, 64812307232796500000, 60418784274450010000, 56025303838709940000, 51631876910997130000, 47238518538915000000, 42845249909533110000, 38452101844542497000, 34059120986124190000, 29666381442337036000, 25274008471240783000, 20882231700170578000, 16491521905997228000, 12103017224711601000, 7720326018898818000, 3363364974516995000]

/-- `ODD_THETA_ZERO_36`, /repo/src/legendre/bogaert/data.rs l.98 (literals times 10^20) -/
def ODD_THETA_ZERO_36 : List Int := [152805455908340520000, 148531279499709770000, 144257103821447070000, 139982929252232000000, 135708756187416670000, 131434585045407880000, 127160416274814340000, 122886250362629700000, 118612087843783940000, 114337929312483200000, 110063775435877090000, 105789626970757620000, 101515484784223800000, 97241349879565840000, 92967223429079470000, 88693106816173680000, 84419001690086870000, 80144910037935240000, 75870834280939360000, 71596777404936250000, 67322743140405020000, 63048736215473570000, 58774762718992410000, 54500830633963270000, 50226950642523950000, 45953137378717120000, 41679411449220070000, 37405802833368024000, 33132356900677470000, 28859145739334800000, 24586291195842494000, 20314016646153016000, 16042780054057115000, 11773688583392444000, 7510252408650087000, 3271846270775479000]

/-- `ODD_THETA_ZERO_37`, /repo/src/legendre/bogaert/data.rs l.99 (literals times 10^20) -/
def ODD_THETA_ZERO_37 : List Int := [152918674095950500000, 148757715829338880000, 144596758200997930000, 140435801541233650000, 136274846194131150000, 132113892522793000000, 127952940915173330000, 123791991790715700000, 119631045608047300000, 115470102874045670000, 111309164154679800000, 107148230088145140000, 102987301400973590000, 98826378928023740000, 94665463637569450000, 90504556663149260000, 86343659344475070000, 82182773280625650000, 78021900400122270000, 73861043054549580000, 69700204145560320000, 65539387300087710000, 61378597116610630000, 57217839518574310000, 53057122273656940000, 48896455777402330000, 44735854272777440000, 40575337817350393000, 36414935593226870000, 32254691765151794000, 28094676508891940000, 23935008440552710000, 19775905016296030000, 15617812066040670000, 11461807422714833000, 7311308274978660000, 3185176130791400600]

/-- `ODD_THETA_ZERO_38`, /repo/src/legendre/bogaert/data.rs l.100 (literals times 10^20) -/
def ODD_THETA_ZERO_38 : List Int := [153026049139476640000, 148972465877511520000, 144918883175317740000, 140865301322073490000, 136811720618403400000, 132758141380702000000, 128704563945924870000, 124650988677007550000, 120597415969106500000, 116543846256901770000, 112490280023264180000, 108436717809673740000, 104383160228892560000, 100329607980552060000, 96276061870534320000, 92222522835332130000, 88168991973005360000, 84115470582971670000, 80061960217772400000, 76008462751291280000, 71954980469916490000, 67901516196229660000, 63848073459662760000, 59794656736377720000, 55741271793539430000, 51687926195157670000, 47634630065474960000, 43581397277032036000, 39528247367062320000, 35475208761995036000, 31422324484366737000, 27369662896590200000, 23317339551444963000, 19265566291163158000, 15214777438359894000, 11166023009182324000, 7122632005925390000, 3102979192734514000]

/-- `ODD_THETA_ZERO_39`, /repo/src/legendre/bogaert/data.rs l.101 (literals times 10^20) -/
def ODD_THETA_ZERO_39 : List Int := [153128021994553090000, 149176411554371160000, 145224801606772310000, 141273192405815060000, 137321584215112710000, 133369977311420820000, 129418371988594000000, 125466768562036670000, 121515167373797840000, 117563568798493500000, 113611973250286820000, 109660381191217040000, 105708793141251860000, 101757209690550900000, 97805631514582070000, 93854059392945990000, 89902494233062870000, 85950937100296760000, 81999389256698230000, 78047852211426350000, 74096327787214400000, 70144818209205660000, 66193326225501510000, 62241855273498860000, 58290409713711580000, 54338995165361470000, 50387618999475530000, 46436291083051960000, 42485024937221766000, 38533839605418110000, 34582762796747680000, 30631836449321670000, 26681127203733410000, 22730747703847656000, 18780904460695785000, 14832020868824491000, 10885120527413226000, 6943448689600674000, 3024917865720923300]

/-- `ODD_THETA_ZERO_40`, /repo/src/legendre/bogaert/data.rs l.102 (literals times 10^20) -/
def ODD_THETA_ZERO_40 : List Int := [153224990337128180000, 149370348210899870000, 145515706519520040000, 141661065486934020000, 137806425345099770000, 133951786336979400000, 130097148719824540000, 126242512768852500000, 122387878781430830000, 118533247081911330000, 114678618027290470000, 110823992013916570000, 106969369485526290000, 103114750942973500000, 99260136956124630000, 95405528178544900000, 91550925365809330000, 87696329398562470000, 83841741311862990000, 79987162332939930000, 76132593930345460000, 72278037878761190000, 68423496345628610000, 64568972008716290000, 60714468218354970000, 56859989225502790000, 53005540509084300000, 49151129256972176000, 45296765091878030000, 41442461201080544000, 37588236158739300000, 33734116992118474000, 29880144608386194000, 26026384011068430000, 22172945078117542000, 18320029251240183000, 14468049533470506000, 10618004403746607000, 6773059476567832000, 2950687695527422200]

/-- `ODD_THETA_ZERO_41`, /repo/src/legendre/bogaert/data.rs l.103 (literals times 10^20) -/
def ODD_THETA_ZERO_41 : List Int := [153317313746063450000, 149554995004073430000, 145792676647134100000, 142030358873269450000, 138268041887252080000, 134505725903110000000, 130743411146867900000, 126981097859600170000, 123218786300887160000, 119456476752785200000, 115694169524446100000, 111931864957555960000, 108169563432806800000, 104407265377675080000, 100644971275860250000, 96882681678844420000, 93120397220182750000, 89358118633336340000, 85595846774144830000, 81833582649437390000, 78071327453856890000, 74309082617810950000, 70546849870704000000, 66784631325472980000, 63022429593320830000, 59260247942049800000, 55498090518649560000, 51735962668782580000, 47973871406233640000, 44211826121403186000, 40449839683966380000, 36687930221529946000, 32926124112405700000, 29164461282420350000, 25403005176659343000, 21641863039856202000, 17881231487420077000, 14121513628844118000, 10363684026346451000, 6610832470916410000, 2880013396280840000]

/-- `ODD_THETA_ZERO_42`, /repo/src/legendre/bogaert/data.rs l.104 (literals times 10^20) -/
def ODD_THETA_ZERO_42 : List Int := [153405318158444910000, 149731003807450100000, 146056689798400270000, 142382376306923300000, 138708063514354800000, 135033751609848070000, 131359440792672390000, 127685131274761270000, 124010823283582730000, 120336517065418170000, 116662212889155680000, 112987911050728500000, 109313611878362440000, 105639315738840580000, 101965023045050300000, 98290734265157860000, 94616449933859430000, 90942170666303210000, 87267897175475180000, 83593630294119290000, 79919371002655220000, 76245120465119920000, 72570880075977910000, 68896651521856900000, 65222436864090740000, 61548238650755040000, 57874060071284210000, 54199905173841260000, 50525779177319610000, 46851688929801740000, 43177643600470994000, 39503655756469730000, 35829743099943100000, 32155931390800080000, 28482259619616190000, 24808789746116890000, 21135626505171548000, 17462961911838980000, 13791189645073390000, 10121261469414694000, 6456194899726138000, 2812645439079299400]

/-- `ODD_THETA_ZERO_43`, /repo/src/legendre/bogaert/data.rs l.105 (literals times 10^20) -/
def ODD_THETA_ZERO_43 : List Int := [153489299713955730000, 149898966899889750000, 146308634390328570000, 142718302341481420000, 139127970914404050000, 135537640276782200000, 131947310604867300000, 128356982085613750000, 124766654919074300000, 121176329321123140000, 117586005526588420000, 113995683792896400000, 110405364404353900000, 106815047677227830000, 103224733965824370000, 99634423669826190000, 96044117243224270000, 92453815205282530000, 88863518154115630000, 85273226783654070000, 81682941905042620000, 78092664473901430000, 74502395625429300000, 70912136720129050000, 67321889404118540000, 63731655689774670000, 60141438065197140000, 56551239645281300000, 52961064384110400000, 49370917379817564000, 45780805322557820000, 42190737170597853000, 38600725202553960000, 35010786714726360000, 31420946877049327000, 27831243787752186000, 24241737989246254000, 20652531821410716000, 17063812909386716000, 13475965932823153000, 9889920900871123000, 6308626356388784000, 2748357108440508200]

/-- `ODD_THETA_ZERO_44`, /repo/src/legendre/bogaert/data.rs l.106 (literals times 10^20) -/
def ODD_THETA_ZERO_44 : List Int := [153569528083863000000, 150059423623506770000, 146549319435030380000, 143039215657749260000, 139529112435109680000, 136019009916202420000, 132508908257400000000, 128998807624157200000, 125488708193020270000, 121978610153899500000, 118468513712670220000, 114958419094182070000, 111448326545774950000, 107938236341424280000, 104428148786670900000, 100918064224531780000, 97407983042645100000, 93897905681976750000, 90387832647517500000, 86877764521537020000, 83367701980151920000, 79857645814229700000, 76347596956026100000, 72837556513490810000, 69327525814959180000, 65817506468104790000, 62307500438771620000, 58797510157982860000, 55287538669629700000, 51777589838110200000, 48267668646371864000, 44757781633867016000, 41247937557528835000, 37738148420490536000, 34228431131485815000, 30718810296974980000, 27209323162849430000, 23700028917671276000, 20191027613484220000, 16682502681819930000, 13174830205329827000, 9668919410176594000, 6167652949817792000, 2686941953400763000]

/-- `ODD_THETA_ZERO_45`, /repo/src/legendre/bogaert/data.rs l.107 (literals times 10^20) -/
def ODD_THETA_ZERO_45 : List Int := [153646249363465360000, 150212866168548940000, 146779483216995030000, 143346100633374740000, 139912718545792720000, 136479337087176740000, 133045956396668250000, 129612576621145700000, 126179197916917450000, 122745820451627630000, 119312444406426880000, 115879069978470550000, 112445697383822090000, 109012326860856330000, 105578958674282900000, 102145593119940230000, 98712230530552400000, 95278871282695910000, 91845515805296150000, 88412164590073130000, 84978818204489980000, 81545477307944640000, 78112142672204110000, 74678815207448060000, 71245495995814230000, 67812186335103910000, 64378887796437220000, 60945602301354530000, 57512332226479060000, 54079080547971100000, 50645851044622330000, 47212648589378370000, 43779479577716430000, 40346352574169186000, 36913279318554165000, 33480276349099464000, 30047367733536573000, 26614589902787040000, 23182000750851180000, 19749698142050345000, 16317861497727970000, 12886858679451502000, 9457579039019365000, 6032842220945916500, 2628211572883546000]

/-- `ODD_THETA_ZERO_46`, /repo/src/legendre/bogaert/data.rs l.108 (literals times 10^20) -/
def ODD_THETA_ZERO_46 : List Int := [153719688593357230000, 150359744615912970000, 146999800856830420000, 143639857427772940000, 140279914443436840000, 136919972022654220000, 133560030289578570000, 130200089374978780000, 126840149417671830000, 123480210566128300000, 120120272980292860000, 116760336833668900000, 113400402315728850000, 110040469634724340000, 106680539020989600000, 103320610730854570000, 99960685051314730000, 96600762305645590000, 93240842860203190000, 89880927132723430000, 86521015602530480000, 83161108823195950000, 79801207438372870000, 76441312201782790000, 73081424002693090000, 69721543898736560000, 66361673158674350000, 63001813318811230000, 59641966258441310000, 56282134302266330000, 52922320361754560000, 49562528133886030000, 46202762386434970000, 42843029377180125000, 39483337486595615000, 36123698202553250000, 32764127708726010000, 29404649557259170000, 26045299399060630000, 22686133889038673000, 19327248797468569000, 15968819707144524000, 12611206610329517000, 9255279834764232000, 5903798711627596000, 2571993685288741200]

/-- `ODD_THETA_ZERO_47`, /repo/src/legendre/bogaert/data.rs l.109 (literals times 10^20) -/
def ODD_THETA_ZERO_47 : List Int := [153790051963917730000, 150500471346111890000, 147210890924687670000, 143921310799975390000, 140631731074917180000, 137342151856013570000, 134052573254337900000, 130762995386640000000, 127473418376563450000, 124183842356004240000, 120894267466644160000, 117604693861699000000, 114315121707929700000, 111025551187975210000, 107735982503080320000, 104446415876308650000, 101156851556355100000, 97867289822100940000, 94577730988095800000, 91288175411202080000, 87998623498708460000, 84709075718313480000, 81419532610509690000, 78129994804077210000, 74840463035644020000, 71550938174622440000, 68261421255334660000, 64971913518874040000, 61682416468333330000, 58392931942665330000, 55103462216951500000, 51814010140796340000, 48524579332906326000, 45235174460394310000, 41945801649207226000, 38656469103563750000, 35367188070031900000, 32077974392664980000, 28788851129698484000, 25499853184775156000, 22211036025685083000, 18922493416437852000, 15634397262123947000, 12347100015370682000, 9061453776736620000, 5780160090309369000, 2518130440638251600]

/-- `ODD_THETA_ZERO_48`, /repo/src/legendre/bogaert/data.rs l.110 (literals times 10^20) -/
def ODD_THETA_ZERO_48 : List Int := [153857528748504580000, 150635424905654580000, 147413321239809350000, 144191217841320850000, 140969114802797400000, 137747012219918630000, 134524910192306720000, 131302808824471140000, 128080708226846940000, 124858608516949050000, 121636509820669910000, 118414412273751900000, 115192316023473570000, 111970221230596410000, 108748128071629080000, 105526036741481000000, 102303947456593010000, 99081860458656750000, 95859776019063200000, 92637694444260370000, 89415616082250620000, 86193541330528180000, 82971470645849170000, 79749404556353830000, 76527343676735090000, 73305288727391180000, 70083240558844520000, 66861200183202980000, 63639168815157500000, 60417147926072900000, 57195139316329270000, 53973145213530000000, 50751168408053770000, 47529212443638920000, 44307281890955474000, 41085382749611127000, 37863523054879983000, 34641713822001846000, 31419970569415990000, 28198315881780467000, 24976783946196493000, 21755429092102200000, 18534343159611358000, 15313694527049704000, 12093828416782526000, 8875579450016283000, 5661593754525191000, 2466476940450737000]

/-- `ODD_THETA_ZERO_49`, /repo/src/legendre/bogaert/data.rs l.111 (literals times 10^20) -/
def ODD_THETA_ZERO_49 : List Int := [153922293003521030000, 150764953407173000000, 147607613970703260000, 144450274775654660000, 141292935905525250000, 138135597446472150000, 134978259488062280000, 131820922124083940000, 128663585453435750000, 125506249581111300000, 122348914619301550000, 119191580688640600000, 116034247919626040000, 112876916454251000000, 109719586447893660000, 106562258071520070000, 103404931514269860000, 100247606986511100000, 97090284723473300000, 93932964989596080000, 90775648083769700000, 87618334345693340000, 84461024163645280000, 81303717984049610000, 78146416323348400000, 74989119782859650000, 71831829067539550000, 68674545009905920000, 65517268600862470000, 62360001029868430000, 59202743737938400000, 56045498488526220000, 52888267463755840000, 49731053397245720000, 46573859760859710000, 43416691032777710000, 40259553091418790000, 37102453809972340000, 33945403981714560000, 30788418812622775000, 27631520432875410000, 24474742341895026000, 21318137776585720000, 18161796730560910000, 15005884197211744000, 11850738459352816000, 8697177361567243000, 5547793843128156300, 2416899936118312000]

/-- `EVEN_W_1`, /repo/src/legendre/bogaert/data.rs l.119 (literals times 10^20) -/
def EVEN_W_1 : List Int := [100000000000000000000]

/-- `EVEN_W_2`, /repo/src/legendre/bogaert/data.rs l.120 (literals times 10^20) -/
def EVEN_W_2 : List Int := [65214515486254610000, 34785484513745385000]

/-- `EVEN_W_3`, /repo/src/legendre/bogaert/data.rs l.121 (literals times 10^20) -/
def EVEN_W_3 : List Int := [46791393457269104000, 36076157304813860000, 17132449237917036000]

/-- `EVEN_W_4`, /repo/src/legendre/bogaert/data.rs l.122 (literals times 10^20) -/
def EVEN_W_4 : List Int := [36268378337836200000, 31370664587788727000, 22238103445337448000, 10122853629037626000]

/-- `EVEN_W_5`, /repo/src/legendre/bogaert/data.rs l.123 (literals times 10^20) -/
def EVEN_W_5 : List Int := [29552422471475287000, 26926671930999635000, 21908636251598204000, 14945134915058060000, 6667134430868814000]

/-- `EVEN_W_6`, /repo/src/legendre/bogaert/data.rs l.124 (literals times 10^20) -/
def EVEN_W_6 : List Int := [24914704581340277000, 23349253653835480000, 20316742672306592000, 16007832854334622000, 10693932599531843000, 4717533638651183000]

/-- `EVEN_W_7`, /repo/src/legendre/bogaert/data.rs l.125 (literals times 10^20) -/
def EVEN_W_7 : List Int := [21526385346315780000, 20519846372129560000, 18553839747793782000, 15720316715819355000, 12151857068790319000, 8015808715976021000, 3511946033175186000]

/-- `EVEN_W_8`, /repo/src/legendre/bogaert/data.rs l.126 (literals times 10^20) -/
def EVEN_W_8 : List Int := [18945061045506850000, 18260341504492358000, 16915651939500254000, 14959598881657674000, 12462897125553388000, 9515851168249279000, 6225352393864789400, 2715245941175409600]

/-- `EVEN_W_9`, /repo/src/legendre/bogaert/data.rs l.127 (literals times 10^20) -/
def EVEN_W_9 : List Int := [16914238296314360000, 16427648374583273000, 15468467512626524000, 14064291467065065000, 12255520671147846000, 10094204410628717000, 7642573025488905000, 4971454889496980000, 2161601352648331000]

/-- `EVEN_W_10`, /repo/src/legendre/bogaert/data.rs l.128 (literals times 10^20) -/
def EVEN_W_10 : List Int := [15275338713072584000, 14917298647260374000, 14209610931838204000, 13168863844917664000, 11819453196151841000, 10193011981724044000, 8327674157670475000, 6267204833410907000, 4060142980038694000, 1761400713915211800]

/-- `EVEN_W_11`, /repo/src/legendre/bogaert/data.rs l.129 (literals times 10^20) -/
def EVEN_W_11 : List Int := [13925187285563198000, 13654149834601517000, 13117350478706238000, 12325237681051242000, 11293229608053922000, 10041414444288096000, 8594160621706773000, 6979646842452049000, 5229333515268328600, 3377490158481415000, 1462799529827220000]

/-- `EVEN_W_12`, /repo/src/legendre/bogaert/data.rs l.130 (literals times 10^20) -/
def EVEN_W_12 : List Int := [12793819534675216000, 12583745634682830000, 12167047292780339000, 11550566805372560000, 10744427011596563000, 9761865210411388000, 8619016153195327000, 7334648141108030000, 5929858491543678000, 4427743881741981000, 2853138862893366300, 1234122979998720000]

/-- `EVEN_W_13`, /repo/src/legendre/bogaert/data.rs l.131 (literals times 10^20) -/
def EVEN_W_13 : List Int := [11832141527926228000, 11666044348529658000, 11336181654631966000, 10847184052857659000, 10205916109442542000, 9421380035591415000, 8504589431348523000, 7468414976565975000, 6327404632957484000, 5097582529714781000, 3796238329436276600, 2441785109263191000, 1055137261734300600]

/-- `EVEN_W_14`, /repo/src/legendre/bogaert/data.rs l.132 (literals times 10^20) -/
def EVEN_W_14 : List Int := [11004701301647520000, 10871119225829413000, 10605576592284642000, 10211296757806076000, 9693065799792992000, 9057174439303284000, 8311341722890121000, 7464621423456878000, 6527292396699960000, 5510734567571675000, 4427293475900423000, 3290142778230438000, 2113211259277126000, 912428259309451700]

/-- `EVEN_W_15`, /repo/src/legendre/bogaert/data.rs l.133 (literals times 10^20) -/
def EVEN_W_15 : List Int := [10285265289355884000, 10176238974840550000, 9959342058679527000, 9636873717464425000, 9212252223778612000, 8689978720108298000, 8075589522942021000, 7375597473770520000, 6597422988218049000, 5749315621761906500, 4840267283059405000, 3879919256962705000, 2878470788332337000, 1846646831109096000, 796819249616660500]

/-- `EVEN_W_16`, /repo/src/legendre/bogaert/data.rs l.134 (literals times 10^20) -/
def EVEN_W_16 : List Int := [9654008851472780000, 9563872007927486000, 9384439908080457000, 9117387869576389000, 8765209300440381000, 8331192422694675000, 7819389578707031000, 7234579410884850000, 6582222277636185000, 5868409347853554400, 5099805926237617500, 4283589802222668000, 3427386291302143000, 2539206530926206000, 1627439473090567000, 701861000947009600]

/-- `EVEN_W_17`, /repo/src/legendre/bogaert/data.rs l.135 (literals times 10^20) -/
def EVEN_W_17 : List Int := [9095674033025987000, 9020304437064074000, 8870189783569386000, 8646573974703575000, 8351309969984566000, 7986844433977185000, 7556197466003194000, 7062937581425573000, 6511152155407642000, 5905413582752449400, 5250741457267811000, 4552561152335327000, 3816659379638752000, 3049138063844613000, 2256372198549497000, 1445016274859503600, 622914055590868500]

/-- `EVEN_W_18`, /repo/src/legendre/bogaert/data.rs l.136 (literals times 10^20) -/
def EVEN_W_18 : List Int := [8598327567039475000, 8534668573933862000, 8407821897966193000, 8218726670433970000, 7968782891207160000, 7659841064587067000, 7294188500565306000, 6874532383573645000, 6403979735501548000, 5886014424532482000, 5324471397775992000, 4723508349026598000, 4087575092364489000, 3421381077030723000, 2729862149856878000, 2018151529773547200, 1291594728406557400, 556571966424504550]

/-- `EVEN_W_19`, /repo/src/legendre/bogaert/data.rs l.137 (literals times 10^20) -/
def EVEN_W_19 : List Int := [8152502928038578000, 8098249377059710000, 7990103324352782000, 7828784465821095000, 7615366354844640000, 7351269258474345000, 7038250706689896000, 6678393797914041000, 6274093339213306000, 5828039914699720000, 5343201991033232000, 4822806186075868000, 4270315850467443000, 3689408159402474000, 3083950054517505300, 2457973973823237400, 1815657770961323600, 1161344471646867500, 500288074963934600]

/-- `EVEN_W_20`, /repo/src/legendre/bogaert/data.rs l.138 (literals times 10^20) -/
def EVEN_W_20 : List Int := [7750594797842480000, 7703981816424797000, 7611036190062624000, 7472316905796826000, 7288658239580406000, 7061164739128678000, 6791204581523390000, 6480401345660104000, 6130624249292894000, 5743976909939155000, 5322784698393682000, 4869580763507223000, 4387090818567327000, 3878216797447201600, 3346019528254784400, 2793700698002340000, 2224584919416696000, 1642105838190789000, 1049828453115281300, 452127709853319100]

/-- `EVEN_W_21`, /repo/src/legendre/bogaert/data.rs l.139 (literals times 10^20) -/
def EVEN_W_21 : List Int := [7386423423217288000, 7346081345346753000, 7265617524380410000, 7145471426517098000, 6986299249259416000, 6788970337652195000, 6554562436490897000, 6284355804500258000, 5979826222758665600, 5642636935801838000, 5274629569917407000, 4877814079280324400, 4454357777196588000, 4006573518069226500, 3536907109759211000, 3047924069960346700, 2542295952611304700, 2022786956905264400, 1492244369735749300, 953622030174850300, 410599860464908500]

/-- `EVEN_W_22`, /repo/src/legendre/bogaert/data.rs l.140 (literals times 10^20) -/
def EVEN_W_22 : List Int := [7054915778935407000, 7019768547355822000, 6949649186157258000, 6844907026936665000, 6706063890629366000, 6533811487918144000, 6329007973320386000, 6092673670156197000, 5825985987759549000, 5530273556372805600, 5207009609170446000, 4857804644835203600, 4484398408197003000, 4088651231034622000, 3672534781380887000, 3238122281206982000, 2787578282128101000, 2323148190201921000, 1847148173681475000, 1361958675557998500, 870048136752484300, 374540480311277760]

/-- `EVEN_W_23`, /repo/src/legendre/bogaert/data.rs l.141 (literals times 10^20) -/
def EVEN_W_23 : List Int := [6751868584903646000, 6721061360067818000, 6659587476845488000, 6567727426778121000, 6445900346713906000, 6294662106439451000, 6114702772465048000, 5906843459554632000, 5672032584399123000, 5411341538585675400, 5125959800714302000, 4817189510171220000, 4486439527731813000, 4135219010967873000, 3765130535738607000, 3377862799910690000, 2975182955220275600, 2558928639713001200, 2130999875413650000, 1693351400783624000, 1247988377098868500, 796989822972462300, 343030086810704830]

/-- `EVEN_W_24`, /repo/src/legendre/bogaert/data.rs l.142 (literals times 10^20) -/
def EVEN_W_24 : List Int := [6473769681268392000, 6446616443595009000, 6392423858464819000, 6311419228625402000, 6203942315989266500, 6070443916589388000, 5911483969839563500, 5727729210040321400, 5519950369998416500, 5289018948519367000, 5035903555385447000, 4761665849249048000, 4467456085669428000, 4154508294346475000, 3824135106583071000, 3477722256477044000, 3116722783279809000, 2742650970835694800, 2357076083932438000, 1961616045735553000, 1557931572294384900, 1147723457923454000, 732755390127626250, 315334605230583850]

/-- `EVEN_W_25`, /repo/src/legendre/bogaert/data.rs l.143 (literals times 10^20) -/
def EVEN_W_25 : List Int := [6217661665534726000, 6193606742068324000, 6145589959031666500, 6073797084177022000, 5978505870426546000, 5860084981322244400, 5718992564772838000, 5555774480621252000, 5371062188899624500, 5165570306958114000, 4940093844946632000, 4695505130394843400, 4432750433880327400, 4152846309014769600, 3856875661258768000, 3545983561514615000, 3221372822357801400, 2884299358053519700, 2536067357001239000, 2178024317012479400, 1811556071348939200, 1438082276148557400, 1059054838365096900, 675979919574540100, 290862255315514100]

/-- `EVEN_W_26`, /repo/src/legendre/bogaert/data.rs l.144 (literals times 10^20) -/
def EVEN_W_26 : List Int := [5981036574529186000, 5959626017124816000, 5916881546604297000, 5852956177181387000, 5768078745252682600, 5662553090236860000, 5536756966930265000, 5391140693275726000, 5226225538390699000, 5042601856634238000, 4840926974407490000, 4621922837278479000, 4386373425900040600, 4135121950056027000, 3869067831042398000, 3589163483509723000, 3296410908971880000, 2991858114714394600, 2676595374650401300, 2351751355398446300, 2018489150798079300, 1678002339630073700, 1331511498234096100, 980263457946275100, 625552396297327700, 269131695004711130]

/-- `EVEN_W_27`, /repo/src/legendre/bogaert/data.rs l.145 (literals times 10^20) -/
def EVEN_W_27 : List Int := [5761753670714702500, 5742613705411211000, 5704397355879460000, 5647231573062596500, 5571306256058998500, 5476873621305798600, 5364247364755361000, 5233801619829875000, 5085969714618815000, 4921242732452888600, 4740167880644499000, 4543346672827671500, 4331432930959701000, 4105130613664497600, 3865191478210252000, 3612412584038355400, 3347633646437265000, 3071734249787067700, 2785630931059587000, 2490274146720877400, 2186645142285308400, 1875752762146938000, 1558630303592413100, 1236332812884764400, 909936945550939700, 580561101523998500, 249748183576158600]

/-- `EVEN_W_28`, /repo/src/legendre/bogaert/data.rs l.146 (literals times 10^20) -/
def EVEN_W_28 : List Int := [5557974630651439700, 5540795250324512000, 5506489590176242400, 5455163687088942400, 5386976186571449000, 5302137852401076600, 5200910915174140000, 5083608261779848400, 4950592468304758000, 4802274679360026000, 4639113337300189400, 4461612765269228000, 4270321608466709000, 4065831138474452000, 3848773425924766000, 3619819387231519000, 3379676711561176000, 3129087674731044500, 2868826847382274000, 2599698705839195400, 2322535156256531500, 2038192988240257000, 1747551291140094600, 1451508927802147200, 1150982434038338300, 846906316330788700, 540252224601533800, 232385537577321560]

/-- `EVEN_W_29`, /repo/src/legendre/bogaert/data.rs l.147 (literals times 10^20) -/
def EVEN_W_29 : List Int := [5368111986333485000, 5352634330405825500, 5321723644657901000, 5275469052637083600, 5214003918366982000, 5137505461828572500, 5046194247995313000, 4940333550896239000, 4820228594541775000, 4686225672902634400, 4538711151481980600, 4378110353364025000, 4204886332958212400, 4019538540986780000, 3822601384585843500, 3614642686708727000, 3396262049341601000, 3168089125380933000, 2930781804416049000, 2685024318198187000, 2431525272496395200, 2171015614014623600, 1904246546189340700, 1631987423497096400, 1355023711298881200, 1074155353287877300, 790197384999867500, 503998161265024300, 216772324962745000]

/-- `EVEN_W_30`, /repo/src/legendre/bogaert/data.rs l.148 (literals times 10^20) -/
def EVEN_W_30 : List Int := [5190787763122063600, 5176794317491019000, 5148845150098093500, 5107015606985563000, 5051418453250937400, 4982203569055018000, 4899557545575683500, 4803703181997118000, 4694898884891220000, 4573437971611448600, 4439647879578711000, 4293889283593564000, 4136555123558475300, 3968069545238080000, 3788886756924344400, 3599489805108450000, 3400389272494642000, 3192121901929633000, 2975249150078894400, 2750355674992479000, 2518047762152124700, 2278951694399782000, 2033712072945728600, 1782990101420772000, 1527461859678479900, 1267816647681596000, 1004755718228798400, 738993116334545600, 471272992695356800, 202681196887375850]

/-- `EVEN_W_31`, /repo/src/legendre/bogaert/data.rs l.149 (literals times 10^20) -/
def EVEN_W_31 : List Int := [5024800037525628000, 5012106956904329000, 4986752859495239400, 4948801791969929000, 4898349622051783500, 4835523796347767500, 4760483018410123500, 4673416847841552000, 4574545221457018000, 4464117897712441000, 4342413825804742000, 4209740441038510000, 4066432888241744400, 3912853175196308000, 3749389258228003000, 3576454062276814000, 3394484437941054600, 3203940058162468000, 3005302257398987000, 2799072816331464000, 2585772695402469700, 2365940720868279400, 2140132227766996700, 1908917665857320000, 1672881179017731600, 1432619182380651800, 1188739011701050100, 941857942842038800, 692604190183096100, 441633345693090500, 189920567951369050]

/-- `EVEN_W_32`, /repo/src/legendre/bogaert/data.rs l.150 (literals times 10^20) -/
def EVEN_W_32 : List Int := [4869095700913972400, 4857546744150343000, 4834476223480295400, 4799938859645831000, 4754016571483031000, 4696818281621002000, 4628479658131441600, 4549162792741814000, 4459055816375656600, 4358372452932345000, 4247351512365359000, 4126256324262353000, 3995374113272034000, 3855015317861562600, 3705512854024005000, 3547221325688238600, 3380516183714160600, 3205792835485155000, 3023465707240247800, 2833967261425948300, 2637746971505466000, 2435270256871087400, 2227017380838325300, 2013482315353021000, 1795171577569734300, 1572603047602471800, 1346304789671864300, 1116813946013112800, 884675982636394700, 650445796897836300, 414703326056246800, 178328072169643300]

/-- `EVEN_W_33`, /repo/src/legendre/bogaert/data.rs l.151 (literals times 10^20) -/
def EVEN_W_33 : List Int := [4722748126299855500, 4712209828764473600, 4691156748762083000, 4659635863958410500, 4617717509791597500, 4565495222527305600, 4503085530544150000, 4430627694315316500, 4348283395666748000, 4256236377005572000, 4154692031324188000, 4043876943895497600, 3924038386682833000, 3795443766594162000, 3658380028813909600, 3513153016547255000, 3360086788611223000, 3199522896404688500, 3031819621886852000, 2857351178293187000, 2676506875425000200, 2489690251475737400, 2297318173532665600, 2099819909186462600, 1897636172277132600, 1691218147224521700, 1481026500273396000, 1267530398126168200, 1051206598770575500, 832538876599090200, 612019201844793700, 390162564174424800, 167765374400723850]

/-- `EVEN_W_34`, /repo/src/legendre/bogaert/data.rs l.152 (literals times 10^20) -/
def EVEN_W_34 : List Int := [4584938738725097000, 4575296541606795000, 4556032425064828600, 4527186901844378000, 4488820634542666600, 4441014308035276000, 4383868459795605000, 4317503268464422500, 4242058301114250000, 4157692219740291600, 4064582447595408000, 3962924796071231000, 3852933052910672000, 3734838532618666600, 3608889590017987000, 3475351097975151000, 3334503890398069000, 3186644171682106000, 3032082893855398000, 2871145102748499200, 2704169254590396000, 2531506504517640000, 2353519968587633500, 2170583961037808000, 1983083208795549700, 1791412045792315300, 1595973590961380000, 1397178917445765500, 1195446231976944300, 991200125158593800, 784871139317716700, 576896991872995200, 367736659501173050, 158114025637291300]

/-- `EVEN_W_35`, /repo/src/legendre/bogaert/data.rs l.153 (literals times 10^20) -/
def EVEN_W_35 : List Int := [4454941715975467000, 4446096841724637000, 4428424653905540400, 4401960239018346000, 4366756139720144000, 4322882250506870000, 4270425678944978000, 4209490572728441000, 4140197912904521000, 4062685273678961000, 3977106549277657000, 3883631648407340000, 3782446156922282000, 3673750969367270000, 3557761890129238000, 3434709204990654000, 3304837223937242000, 3168403796130848000, 3025679798015423700, 2876948595580828000, 2722505481866441600, 2562657090846848200, 2397720788910029400, 2228024045225659700, 2053903782432645400, 1875705709313342000, 1693783637630293000, 1508498786544312800, 1320219081467674700, 1129318464993153700, 936176276969902800, 741176936319021000, 544711187421721900, 347189489307814320, 149272128884451580]

/-- `EVEN_W_36`, /repo/src/legendre/bogaert/data.rs l.154 (literals times 10^20) -/
def EVEN_W_36 : List Int := [4332111216548653600, 4323978130522261600, 4307727227491370000, 4283389016833881500, 4251009191005772300, 4210648539758646000, 4162382836013860000, 4106302693607506000, 4042513397173397000, 3971134704483490000, 3892300621616966000, 3806159151380216600, 3712872015450290000, 3612614350763799400, 3505574380721787000, 3391953061828606000, 3271963706429384400, 3145831582256181000, 3013793489537548000, 2876097316470176000, 2733001573895093400, 2584774910065589000, 2431695606441916500, 2274051055503575500, 2112137221644055200, 1946258086329427700, 1776725078920065500, 1603856495028515400, 1427976905455419400, 1249416561987375800, 1068510816535189800, 885599607370615400, 701027232186186300, 515143601879088700, 328316977466749600, 141151639397343420]

/-- `EVEN_W_37`, /repo/src/legendre/bogaert/data.rs l.155 (literals times 10^20) -/
def EVEN_W_37 : List Int := [4215870660994342000, 4208374996915697400, 4193396995777702000, 4170963287924075000, 4141113759675351000, 4103901482412726500, 4059392618219473000, 4007666302247697000, 3948814502019647000, 3882941853913771000, 3810165477126324600, 3730614765439415500, 3644431157165857000, 3551767883680096000, 3452789696982646000, 3347672576782876500, 3236603417621700000, 3119779696591542700, 2997409122246118600, 2869709265326987600, 2736907171967935300, 2599238960072378800, 2456949399594276700, 2310291477491582500, 2159525948167589000, 2004920870279494300, 1846751130897988000, 1685297958202485200, 1520848424340123400, 1353694941178749400, 1184134754749966700, 1012469453828730500, 839004543397139800, 664049290911435800, 487917975859414500, 310942014989675460, 133676165006988350]

/-- `EVEN_W_38`, /repo/src/legendre/bogaert/data.rs l.156 (literals times 10^20) -/
def EVEN_W_38 : List Int := [4105703691622942400, 4098780546479395000, 4084945930182849000, 4064223171029474000, 4036647212284402000, 4002264553259682000, 3961133170906206000, 3913322422051844000, 3858912926450673600, 3797996430840528500, 3730675654238161000, 3657064114732961500, 3577285938071395000, 3491475648355077000, 3399777941205638000, 3302347439779174000, 3199348434042160000, 3090954603749159600, 2977348725590504000, 2858722365005400200, 2735275553182752200, 2607216449798598400, 2474760992065967000, 2338132530701118500, 2197561453441625000, 2053284796790802000, 1905545846719058200, 1754593729147423000, 1600682991224857200, 1444073174827668000, 1285028384751014400, 1123816856966768800, 960710541471375400, 795984747723973500, 629918049732844550, 462793522803742100, 294910295364247480, 126779163408535960]

/-- `EVEN_W_39`, /repo/src/legendre/bogaert/data.rs l.157 (literals times 10^20) -/
def EVEN_W_39 : List Int := [4001146511842048500, 3994739036908802000, 3981934348036409000, 3962752950781054500, 3937225562423312500, 3905393062777341000, 3867306428725767600, 3823026652585099000, 3772624644432425000, 3716181118549838300, 3653786464168470000, 3585540600719170000, 3511552817821719000, 3431941600268909000, 3346834438285898000, 3256367623368905000, 3160686030030479500, 3059942883801304600, 2954299515860694600, 2843925104689751600, 2728996405162436400, 2609697465510883400, 2486219332622245000, 2358759746145747000, 2227522821911388800, 2092718725187772700, 1954563334339992300, 1813277895498232800, 1669088668934389300, 1522226568017845200, 1372926792014414800, 1221428454978988600, 1067974215748111400, 912809922725508700, 756184318943971900, 598348994444040800, 439559603946034600, 280086881183863040, 120402456606735330]

/-- `EVEN_W_40`, /repo/src/legendre/bogaert/data.rs l.158 (literals times 10^20) -/
def EVEN_W_40 : List Int := [3901781365630665000, 3895839596276953000, 3883965105905197000, 3866175977407646700, 3842499300695942400, 3812971131447763500, 3777636436200140000, 3736549023873049000, 3689771463827601000, 3637374990583598000, 3579439395341605500, 3516052904474759000, 3447312045175393000, 3373321498461152000, 3294193939764540000, 3210049867348777000, 3121017418811470000, 3027232175955798000, 2928836958326785000, 2825981605727686400, 2718822750048638000, 2607523576756511800, 2492253576411549200, 2373188286593010000, 2250509024633246300, 2124402611578200500, 1995061087814200000, 1862681420829903300, 1727465205626930700, 1589618358372568700, 1449350804050907600, 1306876159240134000, 1162411412079782600, 1016176604110306500, 868394526926085900, 719290476811731300, 569092245140319900, 418031312469489600, 266353358951268180, 114495000318694140]

/-- `EVEN_W_41`, /repo/src/legendre/bogaert/data.rs l.159 (literals times 10^20) -/
def EVEN_W_41 : List Int := [3807230964014187000, 3801710843143527000, 3790678605050578500, 3774150245427587000, 3752149728818502000, 3724708953872766400, 3691867707095445500, 3653673605160765600, 3610182025872702600, 3561456027872747500, 3507566259211269000, 3448590854915071000, 3384615323699685700, 3315732423990721400, 3242042029434060600, 3163650984090024500, 3080672947521563000, 2993228230001272400, 2901443618076440500, 2805452190745423000, 2705393126512477300, 2601411501601702500, 2493658079624075400, 2382289093004782600, 2267466016491410200, 2149355333077484400, 2028128292691216000, 1903960664017892400, 1777032479849840700, 1647527776398371000, 1515634327076256300, 1381543371412646000, 1245449340114210400, 1107549578175989600, 968044070437107400, 827135181838368500, 685027453418352600, 541927623244676500, 398045793785607500, 253605469685610600, 109011859527583100]

/-- `EVEN_W_42`, /repo/src/legendre/bogaert/data.rs l.160 (literals times 10^20) -/
def EVEN_W_42 : List Int := [3717153701903407000, 3712016261260209000, 3701748480379452000, 3686364550259031000, 3665885732875908000, 3640340331800212500, 3609763653077257000, 3574197956431531000, 3533692396860127500, 3488302956696330600, 3438092368237270000, 3383130027042598000, 3323491896024044500, 3259260400458425400, 3190524314069273000, 3117378636334566000, 3039924461190247000, 2958268837311084400, 2872524620162180200, 2782810316025840700, 2689249918219764000, 2591972735733464800, 2491113214520643000, 2386810751695824000, 2279209502894213000, 2168458183064482000, 2054709860975628000, 1938121747731881000, 1818854979605655000, 1697074395521161000, 1572948309558360000, 1446648278916118700, 1318348867918234600, 1188227408980122400, 1056463762300824600, 923240078419024700, 788740575264814700, 653151368771365400, 516660518274680850, 379459165045235000, 241751126544312300, 103913351645197200]

/-- `EVEN_W_43`, /repo/src/legendre/bogaert/data.rs l.161 (literals times 10^20) -/
def EVEN_W_43 : List Int := [3631239537581333600, 3626450208420238500, 3616877866860064000, 3602535138093526000, 3583440939092405500, 3559620453657550000, 3531105099203421000, 3497932485321010000, 3460146364173769000, 3417796572791990000, 3370938967341756000, 3319635349455160000, 3263953384718992000, 3203966513429401500, 3139753853730286500, 3071400097263205300, 2998995397466493200, 2922635250670994500, 2842420370149349400, 2758456553285124800, 2670854542037221000, 2579729876883953700, 2485202744439983500, 2387397818947900600, 2286444097854800600, 2182474731692763000, 2075626848490914200, 1966041372956218000, 1853862840670985800, 1739239207569054400, 1622321654972902000, 1503264390508137800, 1382224445276667000, 1259361467806969700, 1134837515617770400, 1008816846038610600, 881465710195481600, 752952161219456200, 623445913914012300, 493118409696010400, 362143924961090160, 230708748880990300, 99164326662036350]

/-- `EVEN_W_44`, /repo/src/legendre/bogaert/data.rs l.162 (literals times 10^20) -/
def EVEN_W_44 : List Int := [3549206430171454600, 3544734460447077000, 3535796155642384500, 3522402777945910600, 3504571202900426400, 3482323898139936000, 3455688895080709000, 3424699753602008000, 3389395519761026000, 3349820676595309500, 3306025088074670000, 3258063936273211000, 3205997651840639000, 3149891837860489000, 3089817187191219700, 3025849393394352400, 2958069055361934800, 2886561575763543000, 2811417053440861200, 2732730169885533000, 2650600069943473800, 2565130236896195000, 2476428362076873300, 2384606209185966000, 2289779473478114000, 2192067635998985400, 2091593813057662400, 1988484601127411500, 1882869917375545200, 1774882836032407400, 1664659420821765600, 1552338553693355400, 1438061760129994400, 1321973031362791300, 1204218643958121200, 1084946977542927200, 964308332205320400, 842454749270247400, 719539845979637200, 595718699613804700, 471147927959866200, 345986766786279650, 220405856314369670, 94733559816192730]

/-- `EVEN_W_45`, /repo/src/legendre/bogaert/data.rs l.163 (literals times 10^20) -/
def EVEN_W_45 : List Int := [3470797248895006000, 3466615208568824000, 3458256166949689000, 3445730196032425000, 3429052388637504000, 3408242840225400000, 3383326624683169000, 3354333764112428000, 3321299192655132000, 3284262714400751000, 3243268955425561400, 3198367310021857400, 3149611881181864000, 3097061415408092200, 3040779231928695400, 2980833146403127600, 2917295389210074200, 2850242518416141700, 2779755327530227700, 2705918748154796000, 2628821747651458700, 2548557221944323000, 2465221883590485200, 2378916145252872200, 2289743998716318300, 2197812889593413500, 2103233587872256300, 2006120054463959500, 1906589303913732000, 1804761263446023500, 1700758628522267700, 1594706715100664000, 1486733308804332400, 1376968511233709300, 1265544583716813000, 1152595788914805900, 1038258230989321500, 922669695774199100, 805969494462001500, 688298320846328450, 569798156074735300, 450612361367497800, 330886724333601800, 210777877452633000, 90593237121483310]

/-- `EVEN_W_46`, /repo/src/legendre/bogaert/data.rs l.164 (literals times 10^20) -/
def EVEN_W_46 : List Int := [3395777082810235000, 3391860442372255000, 3384031678893360000, 3372299821957387000, 3356678402920367600, 3337185439303681000, 3313843414012938000, 3286679249406566000, 3255724276244004000, 3221014197549333000, 3182589047432008600, 3140493144912218000, 3094775042804103300, 3045487471715832200, 2992687279231107500, 2936435364342281400, 2876796607210717700, 2813839794335440400, 2747637539216417300, 2678266198604032000, 2605805784431418000, 2530339871531322700, 2451955501244097400, 2370743081028191300, 2286796280189254400, 2200211921848586000, 2111089871276246300, 2019532920718748400, 1925646670855947500, 1829539409026755700, 1731321984368977600, 1631107680025596000, 1529012082579650100, 1425152948895392500, 1319650070571113900, 1212625136263771100, 1104201592263539400, 994504501972608100, 883660405646787700, 771797183737356900, 659043933421489500, 545530890800087100, 431389533186170000, 316753594339609780, 201767136626283860, 86718517876714220]

/-- `EVEN_W_47`, /repo/src/legendre/bogaert/data.rs l.165 (literals times 10^20) -/
def EVEN_W_47 : List Int := [3323930891781532000, 3320257661860686500, 3312915261254696700, 3301911803949165000, 3287259449712959000, 3268974390660630400, 3247076833358768000, 3221590976496030400, 3192544984141561000, 3159970954621320000, 3123904885046741700, 3084386631534919000, 3041459865164271300, 2995172023714386800, 2945574259243367500, 2892721381560625600, 2836671797657610800, 2777487447163422000, 2715233733896656500, 2649979453589170000, 2581796717861673000, 2510760874535240500, 2436950424366898800, 2360446934301438400, 2281334947335523700, 2199701889094008000, 2115637971222139000, 2029236091701113300, 1940591732198200500, 1849802852566591000, 1756969782614325300, 1662195111266549800, 1565583573251556000, 1467241933449946400, 1367278869060687900, 1265804849763899400, 1162932016112241400, 1058774056495412200, 953446083286515900, 847064509453463600, 739746928814235700, 631612009103644800, 522779428950776800, 413369987540777700, 303506589103862800, 193321988872541900, 83087161268216240]

/-- `EVEN_W_48`, /repo/src/legendre/bogaert/data.rs l.166 (literals times 10^20) -/
def EVEN_W_48 : List Int := [3255061449236317000, 3251611871386883600, 3244716371406427000, 3234382256857593000, 3220620479403025000, 3203445623199266400, 3182875889441101000, 3158933077072717000, 3131642559686135400, 3101033258631383600, 3067137612366914800, 3029991542082759500, 2989634413632838400, 2946108995816790500, 2899461415055523700, 2849741106508538500, 2797000761684833400, 2741296272602924300, 2682686672559176000, 2621234073567241300, 2557003600534936000, 2490063322248361000, 2420484179236469200, 2348339908592622000, 2273706965832937200, 2196664443874435000, 2117293989219130000, 2035679715433332300, 1951908114014502000, 1866067962741146600, 1778250231604526000, 1688547986424517400, 1597056290256229300, 1503872102699493700, 1409094177231486000, 1312822956696157300, 1215160467108832000, 1116210209983849900, 1016077053500841600, 914867123078338600, 812687692569875900, 709647079115386500, 605854550423596100, 501420274292751800, 396455433844468700, 291073181793494650, 185396078894692170, 79679206555201240]

/-- `EVEN_W_49`, /repo/src/legendre/bogaert/data.rs l.167 (literals times 10^20) -/
def EVEN_W_49 : List Int := [3188987535287647000, 3185743815812401000, 3179259676252863000, 3169541712034925500, 3156599807910805000, 3140447127904656000, 3121100101922626500, 3098578409040993500, 3072904957489367000, 3044105861349326000, 3012210413992189700, 2977251058282947800, 2939263353580649000, 2898285939568834300, 2854360496952788500, 2807531705063614000, 2757847196412239300, 2705357508239612800, 2650116031112364000, 2592178954616245000, 2531605210202609800, 2468456411246099400, 2402796790374550000, 2334693134134927300, 2264214715061843200, 2191433221217865000, 2116422683277485700, 2039259399229191600, 1960021856772633000, 1878790653490468700, 1795648414877063000, 1710679710308990000, 1623970967045369400, 1535610382349775600, 1445687833830440100, 1354294788102946400, 1261524207892195300, 1167470457713812500, 1072229208322431800, 975897340217409700, 878572846739226300, 780354737910075500, 681342947916521600, 581638254643963900, 481342239858677100, 380557408535235970, 279388113572213100, 177947704101452880, 76476698227431350]

/-- `EVEN_W_50`, /repo/src/legendre/bogaert/data.rs l.168 (literals times 10^20) -/
def EVEN_W_50 : List Int := [3125542345386335400, 3122488425484935800, 3116383569620990700, 3107233742756651500, 3095047885049098700, 3079837903115259000, 3061618658398044700, 3040407952645482000, 3016226510516914500, 2989097959333283200, 2959048805991264200, 2926108411063827600, 2890308960112520000, 2851685432239509800, 2810275565910117300, 2766119822079239000, 2719261344657688000, 2669745918357096400, 2617621923954567600, 2562940291020811600, 2505754448157959000, 2446120270795705200, 2384096026596820700, 2319742318525412300, 2253122025633627300, 2184300241624738800, 2113344211252764200, 2040323264620943300, 1965308749443530500, 1888373961337490300, 1809594072212811600, 1729046056832358300, 1646808617614521300, 1562962107754600400, 1477588452744130200, 1390771070371877300, 1302594789297154200, 1213145766297949800, 1122511402318597700, 1030780257486897000, 938041965369445700, 844387146966897000, 749907325546471100, 654694845084532200, 558842800386551500, 462445006342211960, 365596120132637540, 268392537155348260, 170939265351810520, 73463449050567170]

/-- `ODD_W_1`, /repo/src/legendre/bogaert/data.rs l.170 (literals times 10^20) -/
def ODD_W_1 : List Int := [55555555555555560000]

/-- `ODD_W_2`, /repo/src/legendre/bogaert/data.rs l.171 (literals times 10^20) -/
def ODD_W_2 : List Int := [47862867049936647000, 23692688505618908000]

/-- `ODD_W_3`, /repo/src/legendre/bogaert/data.rs l.172 (literals times 10^20) -/
def ODD_W_3 : List Int := [38183005050511890000, 27970539148927664000, 12948496616886970000]

/-- `ODD_W_4`, /repo/src/legendre/bogaert/data.rs l.173 (literals times 10^20) -/
def ODD_W_4 : List Int := [31234707704000286000, 26061069640293544000, 18064816069485740000, 8127438836157441000]

/-- `ODD_W_5`, /repo/src/legendre/bogaert/data.rs l.174 (literals times 10^20) -/
def ODD_W_5 : List Int := [26280454451024665000, 23319376459199048000, 18629021092773426000, 12558036946490460000, 5566856711617366000]

/-- `ODD_W_6`, /repo/src/legendre/bogaert/data.rs l.175 (literals times 10^20) -/
def ODD_W_6 : List Int := [22628318026289723000, 20781604753688850000, 17814598076194574000, 13887351021978725000, 9212149983772845000, 4048400476531588000]

/-- `ODD_W_7`, /repo/src/legendre/bogaert/data.rs l.176 (literals times 10^20) -/
def ODD_W_7 : List Int := [19843148532711158000, 18616100001556220000, 16626920581699392000, 13957067792615432000, 10715922046717194000, 7036604748810812000, 3075324199611727000]

/-- `ODD_W_8`, /repo/src/legendre/bogaert/data.rs l.177 (literals times 10^20) -/
def ODD_W_8 : List Int := [17656270536699264000, 16800410215645004000, 15404576107681028000, 13513636846852548000, 11188384719340397000, 8503614831717918000, 5545952937398720000, 2414830286854793000]

/-- `ODD_W_9`, /repo/src/legendre/bogaert/data.rs l.178 (literals times 10^20) -/
def ODD_W_9 : List Int := [15896884339395434000, 15276604206585967000, 14260670217360660000, 12875396253933621000, 11156664554733399000, 9149002162245000000, 6904454273764123000, 4481422676569960000, 1946178822972647800]

/-- `ODD_W_10`, /repo/src/legendre/bogaert/data.rs l.179 (literals times 10^20) -/
def ODD_W_10 : List Int := [14452440398997005000, 13988739479107315000, 13226893863333747000, 12183141605372853000, 10879729916714838000, 9344442345603386000, 7610011362837930000, 5713442542685720500, 3695378977085249400, 1601722825777433500]

/-- `ODD_W_11`, /repo/src/legendre/bogaert/data.rs l.180 (literals times 10^20) -/
def ODD_W_11 : List Int := [13246203940469660000, 12890572218808216000, 12304908430672953000, 11499664022241136000, 10489209146454141000, 9291576606003515000, 7928141177671895000, 6423242140852585000, 4803767173108467000, 3098800585697944500, 1341185948714177100]

/-- `ODD_W_12`, /repo/src/legendre/bogaert/data.rs l.181 (literals times 10^20) -/
def ODD_W_12 : List Int := [12224244299031004000, 11945576353578477000, 11485825914571164000, 10851962447426365000, 10053594906705064000, 9102826198296365000, 8014070033500102000, 6803833381235691000, 5490469597583519400, 4093915670130631600, 2635498661503213700, 1139379850102628800]

/-- `ODD_W_13`, /repo/src/legendre/bogaert/data.rs l.182 (literals times 10^20) -/
def ODD_W_13 : List Int := [11347634610896515000, 11125248835684519000, 10757828578853319000, 10250163781774580000, 9608872737002850000, 8842315854375694000, 7960486777305777000, 6974882376624560000, 5898353685983359600, 4744941252061506000, 3529705375741971000, 2268623159618062300, 979899605129436000]

/-- `ODD_W_14`, /repo/src/legendre/bogaert/data.rs l.183 (literals times 10^20) -/
def ODD_W_14 : List Int := [10587615509732094000, 10407331007772938000, 10109127375991496000, 9696383409440860000, 9173775713925876000, 8547225736617253000, 7823832713576379000, 7011793325505128000, 6120309065707913600, 5159482690249793000, 4140206251868283600, 3074049220209362400, 1973208505612270700, 851690387874641000]

/-- `ODD_W_15`, /repo/src/legendre/bogaert/data.rs l.184 (literals times 10^20) -/
def ODD_W_15 : List Int := [9922501122667231000, 9774333538632872000, 9529024291231951000, 9189011389364148000, 8757674060847788000, 8239299176158926000, 7639038659877662000, 6962858323541037000, 6217478656102843000, 5410308242491685500, 4549370752720110400, 3643227391238547000, 2700901918497942300, 1731862079031058400, 747083157924877550]

/-- `ODD_W_16`, /repo/src/legendre/bogaert/data.rs l.185 (literals times 10^20) -/
def ODD_W_16 : List Int := [9335642606559612000, 9212398664331685000, 9008195866063858000, 8724828761884433000, 8364787606703870000, 7931236479488674000, 7427985484395415000, 6859457281865672000, 6230648253031748000, 5547084663166356000, 4814774281871169600, 4040154133166959400, 3230035863232895400, 2391554810174948000, 1532170151293467600, 660622784758737800]

/-- `ODD_W_17`, /repo/src/legendre/bogaert/data.rs l.186 (literals times 10^20) -/
def ODD_W_17 : List Int := [8814053043027546000, 8710444699718353000, 8538665339209912000, 8300059372885658000, 7996494224232427000, 7630345715544205000, 7204479477256007000, 6722228526908690000, 6187367196608018600, 5604081621237013000, 4976937040135353000, 4310842232617021600, 3611011586346338000, 2882926010889425400, 2132297991148358200, 1365082834836149300, 588343342044308500]

/-- `ODD_W_18`, /repo/src/legendre/bogaert/data.rs l.187 (literals times 10^20) -/
def ODD_W_18 : List Int := [8347457362586279000, 8259527223643726000, 8113662450846502000, 7910886183752938000, 7652620757052923000, 7340677724848817000, 6977245155570035000, 6564872287275125000, 6106451652322599000, 5605198799827492000, 5064629765482460400, 4488536466243716500, 3880960250193454000, 3246163984752148400, 2588603699055893500, 1912904448908396600, 1223878010030755700, 527305727949793900]

/-- `ODD_W_19`, /repo/src/legendre/bogaert/data.rs l.188 (literals times 10^20) -/
def ODD_W_19 : List Int := [7927622256836847000, 7852361328737117000, 7727455254468202000, 7553693732283606000, 7332175341426862000, 7064300597060875000, 6751763096623127000, 6396538813868238000, 6000873608859615000, 5567269034091630000, 5098466529212940000, 4597430110891663500, 4067327684793384000, 3511511149813133000, 2933495598390338000, 2336938483217816300, 1725622909372491800, 1103478893916459400, 475294469163510100]

/-- `ODD_W_20`, /repo/src/legendre/bogaert/data.rs l.189 (literals times 10^20) -/
def ODD_W_20 : List Int := [7547874709271582000, 7482962317622155000, 7375188202722346000, 7225169686102308000, 7033766062081749000, 6802073676087676000, 6531419645352741000, 6223354258096632000, 5879642094987195000, 5502251924257874000, 5093345429461749000, 4655264836901434000, 4190519519590969000, 3701771670350799000, 3191821173169928000, 2663589920711044400, 2120106336877955500, 1564493840781859000, 999993877390594600, 430614035816488750]

/-- `ODD_W_21`, /repo/src/legendre/bogaert/data.rs l.190 (literals times 10^20) -/
def ODD_W_21 : List Int := [7202750197142198000, 7146373425251414000, 7052738776508503000, 6922334419365668000, 6755840222936517000, 6554124212632280000, 6318238044939611000, 6049411524999129000, 5749046195691052000, 5418708031888179000, 5060119278439015000, 4675149475434658000, 4265805719798208000, 3834222219413266000, 3382649208686029000, 2913441326149849400, 2429045661383881500, 1931990142368390000, 1424875643157648600, 910399663740140400, 391949025384412740]

/-- `ODD_W_22`, /repo/src/legendre/bogaert/data.rs l.191 (literals times 10^20) -/
def ODD_W_22 : List Int := [6887731697766132000, 6838457737866968000, 6756595416360754000, 6642534844984253000, 6496819575072343000, 6320144007381993000, 6113350083106652000, 5877423271884174000, 5613487875978647600, 5322801673126895000, 5006749923795203000, 4666838771837336600, 4304688070916497000, 3922023672930245000, 3520669220160902000, 3102537493451546600, 2669621396757766400, 2223984755057873200, 1767753525793759000, 1303110499158278500, 832318929621824000, 358266315528355900]

/-- `ODD_W_23`, /repo/src/legendre/bogaert/data.rs l.192 (literals times 10^20) -/
def ODD_W_23 : List Int := [6599053358881048000, 6555737776654974000, 6483755623894573000, 6383421660571703000, 6255174622092166000, 6099575300873965000, 5917304094233888000, 5709158029323154000, 5476047278153023000, 5218991178005714000, 4939113774736117000, 4637638908650591000, 4315884864847954000, 3975258612253100600, 3617249658417495000, 3243423551518475500, 2855415070064338700, 2454921165965882000, 2043693814766842800, 1623533314643306000, 1196284846431232100, 763861629584883300, 328745384252801500]

/-- `ODD_W_24`, /repo/src/legendre/bogaert/data.rs l.193 (literals times 10^20) -/
def ODD_W_24 : List Int := [6333550929649175000, 6295270746519570000, 6231641732005726400, 6142920097919294000, 6029463095315202000, 5891727576002727000, 5730268153018748000, 5545734967480359000, 5338871070825897000, 5110509433014459000, 4861569588782824000, 4593053935559585000, 4306043698125959500, 4001694576637302000, 3681232096300069000, 3345946679162218000, 2997188462058382500, 2636361892706601600, 2264920158744667500, 1884359585308945800, 1496214493562465000, 1102055103159358000, 703509959008645140, 302727898892290500]

/-- `ODD_W_25`, /repo/src/legendre/bogaert/data.rs l.194 (literals times 10^20) -/
def ODD_W_25 : List Int := [6088546484485634500, 6054550693473779000, 5998031577750325600, 5919199392296154600, 5818347398259214000, 5695850772025866400, 5552165209573869000, 5387825231304556000, 5203442193669708500, 4999702015005741000, 4777362624062310400, 4537251140765007000, 4280260799788008400, 4007347628549646000, 3719526892326029000, 3417869320418833600, 3103497129016001000, 2777579859416247700, 2441330057378143400, 2095998840170321000, 1742871472340105200, 1383263400647782200, 1018519129782173000, 650033778325260000, 279680717108989540]

/-- `ODD_W_26`, /repo/src/legendre/bogaert/data.rs l.195 (literals times 10^20) -/
def ODD_W_26 : List Int := [5861758623272026600, 5831431136225601000, 5781001499171320000, 5710643553626719400, 5620599838173971000, 5511180752393360000, 5382763486873103000, 5235790722987272000, 5070769106929272000, 4888267503269914000, 4688915034075031400, 4473398910367281000, 4242462063452001600, 3996900584354038500, 3737560980348291600, 3465337258353424000, 3181167845901932600, 2886032361782373700, 2580948251075751800, 2266967305707020700, 1945172110763689400, 1616672525668746300, 1282602614424037900, 944120228494034500, 602427622694867400, 259168372056703200]

/-- `ODD_W_27`, /repo/src/legendre/bogaert/data.rs l.196 (literals times 10^20) -/
def ODD_W_27 : List Int := [5651231824977200000, 5624063407108436500, 5578879419528409000, 5515824600250869000, 5435100932991110400, 5336967000160547400, 5221737154563209000, 5089780512449398000, 4941519771155174000, 4777429855120069600, 4598036394628384000, 4403914042160659000, 4195684631771876000, 3974015187433718000, 3739615786796554600, 3493237287358988400, 3235668922618583500, 2967735776516104000, 2690296145639627000, 2404238800972562000, 2110480166801645400, 1809961452072906400, 1503645833351178800, 1192516071984861200, 877574610705852800, 559863226656076750, 240832361997978900]

/-- `ODD_W_28`, /repo/src/legendre/bogaert/data.rs l.197 (literals times 10^20) -/
def ODD_W_28 : List Int := [5455280360476188000, 5430847145249864000, 5390206148329857600, 5333478658481916000, 5260833972917743000, 5172488892051782500, 5068707072492741000, 4949798240201968000, 4816117266168775000, 4668063107364150000, 4506077616138115500, 4330644221621520000, 4142286487080111000, 3941566547548011600, 3729083432441731400, 3505471278231262000, 3271397436637157000, 3027560484269400000, 2774688140218019300, 2513535099091812300, 2244880789077643600, 1969527069948852000, 1688295902344155000, 1402027079075355600, 1111576373233599000, 817816006782123300, 521653347471878000, 224375387225066300]

/-- `ODD_W_29`, /repo/src/legendre/bogaert/data.rs l.198 (literals times 10^20) -/
def ODD_W_29 : List Int := [5272443385912793000, 5250390264782874000, 5213703364837539400, 5162484939089148000, 5096877742539391400, 5017064634299690000, 4923268067936198400, 4815749471460644000, 4694808518696201600, 4560782294050977000, 4414044353029738400, 4255003681106763600, 4084103553868671000, 3901820301616001000, 3708661981887092400, 3505166963640011000, 3291902427104527500, 3069462783611168200, 2838468020053480000, 2599561973129850000, 2353410539371336400, 2100699828843718600, 1842134275361003000, 1578434731308146800, 1310336630634519000, 1038588550099586200, 763952945348757560, 487223916826528500, 209549228454122350]

/-- `ODD_W_30`, /repo/src/legendre/bogaert/data.rs l.199 (literals times 10^20) -/
def ODD_W_30 : List Int := [5101448703869726500, 5081476366881834000, 5048247038679741000, 5001847410817825000, 4942398534673559000, 4870055505641153000, 4785007058509560500, 4687475075080907000, 4577714005314596000, 4456010203508349000, 4322681181249609500, 4178074779088849400, 4022568259099825000, 3856567320700817600, 3680505042315481600, 3494840751653335000, 3300058827590741000, 3096667436839739600, 2885197208818340000, 2666199852415089000, 2440246718754420300, 2207927314831904500, 1969847774610118000, 1726629298761374300, 1478906588493791500, 1227326350781210400, 972546183035613400, 715235499174909000, 456092400601241700, 196145336167028300]

/-- `ODD_W_31`, /repo/src/legendre/bogaert/data.rs l.200 (literals times 10^20) -/
def ODD_W_31 : List Int := [4941183303991818000, 4923038042374756000, 4892845282051199000, 4850678909788385000, 4796642113799513000, 4730867131226891600, 4653514924538370000, 4564774787629261000, 4464863882594139600, 4354026708302759000, 4232534502081582000, 4100684575966640000, 3958799589154409600, 3807226758434955500, 3646337008545729000, 3476524064535587600, 3298203488377934000, 3111811662221982000, 2917804720828052700, 2716657435909793400, 2508862055334498700, 2294927100488993200, 2075376125803909000, 1850746446016127000, 1621587841033834000, 1388461261611561100, 1151937607688004200, 912596867632665600, 671029176596013700, 427850834686376200, 183987459557708420]

/-- `ODD_W_32`, /repo/src/legendre/bogaert/data.rs l.201 (literals times 10^20) -/
def ODD_W_32 : List Int := [4790669250049586000, 4774134868124062000, 4746619823288550400, 4708187401045452000, 4658925997223349600, 4598948914665170000, 4528394102630023400, 4447423839508297000, 4356224359580048600, 4255005424675580000, 4143999841724029000, 4023462927300553600, 3893671920405119400, 3754925344825770600, 3607542322556528000, 3451861839854905600, 3288241967636857500, 3117059038018914200, 2938706778931066800, 2753595408845034600, 2562150693803775700, 2364812969128723600, 2162036128493406400, 1954286583675006000, 1742042199767024700, 1525791214644831000, 1306031163999484700, 1083267878959796900, 858014826688146000, 630794257897175500, 402152417200373600, 172925825130025080]

/-- `ODD_W_33`, /repo/src/legendre/bogaert/data.rs l.202 (literals times 10^20) -/
def ODD_W_33 : List Int := [4649043816026463000, 4633935168241562000, 4608790448976158000, 4573664116106369000, 4528632245466953000, 4473792366088983000, 4409263248975102000, 4335184649869952000, 4251717006583049400, 4159041091519924400, 4057357620174452400, 3946886816430888000, 3827867935617948000, 3700558746349258400, 3565234972274501000, 3422189694953664500, 3271732719153120500, 3114189901947282300, 2949902447094567000, 2779226166243677000, 2602530708621324000, 2420198760967316400, 2232625219645207800, 2040216337134354000, 1843388845680457200, 1642569062253088000, 1438191982720055100, 1230700384928815000, 1020544003410244100, 808179029902313600, 594069317758223500, 378700830182550830, 162832503524001290]

/-- `ODD_W_34`, /repo/src/legendre/bogaert/data.rs l.203 (literals times 10^20) -/
def ODD_W_34 : List Int := [4515543023614546000, 4501700814039980000, 4478661887831255500, 4446473312204713600, 4405200846590929000, 4354928808292674000, 4295759900230521000, 4227815001128051000, 4151232918565450000, 4066170105406160400, 3972800340176164000, 3871314372049251000, 3761919531164091000, 3644839305070051600, 3520312882168348500, 3388594663083229000, 3249953740964611000, 3104673351789054000, 2953050295790671200, 2795394331218770500, 2632027541686948400, 2463283678454245700, 2289507479074078700, 2111053963987189600, 1928287712884940400, 1741582123196983000, 1551318654340616600, 1357886064907567200, 1161679661067196500, 963100615041557500, 762555593120151100, 560457992787059500, 357241673939737250, 153597695279208400]

/-- `ODD_W_35`, /repo/src/legendre/bogaert/data.rs l.204 (literals times 10^20) -/
def ODD_W_35 : List Int := [4389487921178858400, 4376774491340214000, 4355612710410853400, 4326043426324127000, 4288123715758044000, 4241926773962459400, 4187541773473301000, 4125073691986603000, 4054643109724690000, 3976385976685758000, 3890453350226294500, 3797011103483116000, 3696239605198203000, 3588333371564891000, 3473500690768218500, 3351963220945403000, 3223955562344353000, 3089724804509072000, 2949530049370881200, 2803641911174149000, 2652341994215790700, 2495922349431387400, 2334684910922325000, 2168940913598537000, 1999010293235011300, 1825221070467867000, 1647908720746239800, 1467415533461152900, 1284089966808780700, 1098286015429855200, 910362646199200500, 720683528183149300, 529618284402589260, 337555549673067600, 145126733002939730]

/-- `ODD_W_36`, /repo/src/legendre/bogaert/data.rs l.205 (literals times 10^20) -/
def ODD_W_36 : List Int := [4270273086485722000, 4258568982601839000, 4239085899223159000, 4211859425425564000, 4176939294869285600, 4134389294952549000, 4084287150293886000, 4026724380756003400, 3961806134270614400, 3889650994769673600, 3810390765573980000, 3724170228634977000, 3631146880069778500, 3531490642472829000, 3425383554530221600, 3313019438504384000, 3194603546197670500, 3070352184043350500, 2940492318011656000, 2805261159057206000, 2664905729872748400, 2519682413753831400, 2369856486421897600, 2215701631704007300, 2057499442036117000, 1895538904867002200, 1730115876248908300, 1561532543359142300, 1390096878831465100, 1216122092928111200, 1039926099500053200, 861831047953224800, 682163134917479200, 501253857160619000, 319452437728903450, 137337646275961920]

/-- `ODD_W_37`, /repo/src/legendre/bogaert/data.rs l.206 (literals times 10^20) -/
def ODD_W_37 : List Int := [4157356944178127600, 4146558103261909000, 4128580808246718600, 4103456181139210000, 4071227717293733000, 4031951210114157600, 3985694654465635000, 3932538128963516000, 3872573657343257600, 3805905049151360500, 3732647720033209000, 3652928491929034000, 3566885373524045000, 3474667321333041000, 3376433981833409000, 3272355415093422000, 3162611800374965000, 3047393124221454000, 2926898851572598500, 2801337580478054000, 2670926681012085000, 2535891919021637800, 2396467065371696000, 2252893491386577500, 2105419751228284000, 1954301152012788800, 1799799312564505000, 1642181711902464000, 1481721228981446900, 1318695676282480100, 1153387332830449600, 986082491611401900, 817071070732782600, 646646490703753900, 475106918501527400, 302767101460604100, 130159171737585600]

/-- `ODD_W_38`, /repo/src/legendre/bogaert/data.rs l.207 (literals times 10^20) -/
def ODD_W_38 : List Int := [4050253572678803000, 4040269003221775400, 4023646282485108400, 4000412721559124000, 3970606493128931000, 3934276568757015500, 3891482638423378000, 3842295012455452400, 3786794506008932000, 3725072306289372000, 3657229822732745000, 3583378520391196400, 3503639736797828000, 3418144482611568000, 3327033226369854000, 3230455663703097500, 3128570471390543000, 3021545046662300000, 2909555232176876000, 2792785027127697000, 2671426284955789200, 2545678398169440300, 2415747970795584600, 2281848479012952000, 2144199920545613500, 2003028453431617700, 1858566024834148700, 1711049990653110500, 1560722726874913200, 1407831234002700400, 1252626736922736500, 1095364285391135400, 936302369238643100, 775702595008307100, 613829615975634150, 450952360020583500, 287355308365269160, 123529117713940960]

/-- `ODD_W_39`, /repo/src/legendre/bogaert/data.rs l.208 (literals times 10^20) -/
def ODD_W_39 : List Int := [3948525740129116000, 3939275600474300600, 3923874749659464500, 3902347234287980000, 3874726667023997000, 3841056174110418000, 3801388328032605000, 3755785065432977000, 3704317590404678600, 3647066263315342600, 3584120475334575500, 3515578508861113400, 3441547384067660000, 3362142691803093000, 3277488413113082000, 3187716725661117000, 3092967797352483600, 2993389567483836400, 2889137515760726800, 2780374419544706000, 2667270099710555500, 2550001155512877200, 2428750688879949300, 2303708018571902500, 2175068384660808000, 2043032643814086000, 1907806955893749000, 1769602462431041700, 1628634957619168300, 1485124552635006800, 1339295334482567600, 1191375021511699800, 1041594620451338300, 890188098265248600, 737392113133017700, 583445986876346600, 428592911312653150, 273090706575485600, 117393012995661300]

/-- `ODD_W_40`, /repo/src/legendre/bogaert/data.rs l.209 (literals times 10^20) -/
def ODD_W_40 : List Int := [3851778959688470000, 3843192958037517500, 3828897129558352000, 3808912713547560000, 3783269400830056000, 3752005289647583600, 3715166829056371000, 3672808749918044000, 3624993983586341500, 3571793568410457000, 3513286544193938000, 3449559834765980000, 3380708118839624600, 3306833689348800000, 3228046301473269000, 3144463009577406300, 3056207993305266200, 2963412373090559800, 2866214015356067700, 2764757327692492600, 2659193044321992200, 2549678002166567600, 2436374907856309800, 2319452096027392000, 2199083279275163400, 2075447290144561000, 1948727815560191700, 1819113124125576000, 1686795786763514000, 1551972391246436400, 1414843251323606500, 1275612111513442200, 1134485849541625600, 991674180959587600, 847389378534556600, 701846048493162600, 555261137025627900, 407855111342139500, 259862229992895300, 111702984712460660]

/-- `ODD_W_41`, /repo/src/legendre/bogaert/data.rs l.210 (literals times 10^20) -/
def ODD_W_41 : List Int := [3759656394395518000, 3751672450373727500, 3738378433575740400, 3719793160197673000, 3695942935618497000, 3666861517167809000, 3632590066346228600, 3593177090566064500, 3548678374494710500, 3499156901097965500, 3444682762495051400, 3385333060751520000, 3321191798750501600, 3252349761296806400, 3178904386622215000, 3100959628473919400, 3018625808981441700, 2932019462510452800, 2841263170724764300, 2746485389090326200, 2647820265067376400, 2545407448248949600, 2439391892715856000, 2329923651890055000, 2217157666180362400, 2101253543726991700, 1982375334565493800, 1860691298547847300, 1736373667382462200, 1609598401193537000, 1480544940071787700, 1349395951237523600, 1216337072779861300, 1081556655803715900, 945245509247970000, 807596659312345200, 668805163524368500, 529068144585986600, 388585943535320200, 247571932254593950, 106416821966656780]

/-- `ODD_W_42`, /repo/src/legendre/bogaert/data.rs l.211 (literals times 10^20) -/
def ODD_W_42 : List Int := [3671834473341962000, 3664397593378570400, 3652013948874488500, 3634700257169520000, 3612479890936246000, 3585382846628081000, 3553445703985570000, 3516711576655579000, 3475230053990064000, 3429057134102985000, 3378255148275753000, 3322892676813277000, 3263044456464217500, 3198791279530468000, 3130219884802087000, 3057422840464999600, 2980498419139589000, 2899550465219015000, 2814688254686507600, 2726026347601116400, 2633684433451436000, 2537787169586609000, 2438464012943568300, 2335849045298989000, 2230080792283937300, 2121302036408938000, 2009659624357542000, 1895304268818284000, 1778390345139817300, 1659075683115467000, 1537521354238962700, 1413891454840083200, 1288352885649808400, 1161075128670389700, 1032230023052424500, 901991543999363200, 770535596038275700, 638039858789751500, 504683842692444250, 370650012575931670, 236133170428502100, 101497190896774370]

/-- `ODD_W_43`, /repo/src/legendre/bogaert/data.rs l.212 (literals times 10^20) -/
def ODD_W_43 : List Int := [3588019106018701400, 3581080434383374000, 3569525919440943000, 3553370454416059000, 3532634862941021000, 3507345872215153500, 3477536078554782600, 3443243905378224500, 3404513553679937000, 3361394945057693400, 3313943657366202000, 3262220853080144400, 3206293200458967000, 3146232787615076000, 3082117029596223600, 3014028568601882400, 2942055167462304800, 2866289596517621700, 2786829514042920800, 2703777340373580600, 2617240125893356000, 2527329413055707400, 2434161092616763200, 2337855254266017000, 2238536031848547800, 2136331443380253000, 2031373226065557000, 1923796666535656000, 1813740426535425200, 1701346364300153300, 1586759351882631800, 1470127088723984300, 1351599911824565900, 1231330603004803700, 1109474194056072000, 986187771370182700, 861630283848895100, 735962364881806350, 609346204763487200, 481945623850188550, 353927165538862840, 225469075375285330, 96910973817707540]

/-- `ODD_W_44`, /repo/src/legendre/bogaert/data.rs l.213 (literals times 10^20) -/
def ODD_W_44 : List Int := [3507942401790202500, 3501458416619644000, 3490660650856071000, 3475562407298142000, 3456182286913781000, 3432544165923908500, 3404677166387109000, 3372615620321457000, 3336399027407732000, 3296072006326112000, 3251684239786320500, 3203290413318958500, 3150950147903429000, 3094727926515484400, 3034693014684912800, 2970919375161245800, 2903485576792681000, 2832474697730520700, 2757974223078458300, 2680075937112917600, 2598875810207383600, 2514473880600257000, 2426974131152234000, 2336484361245544700, 2243116053983637000, 2146984238856114000, 2048207350040027000, 1946907080515187400, 1843208232178411600, 1737238562150240200, 1629128625479238400, 1519011614466612300, 1407023194864448300, 1293301339260267800, 1177986158087489200, 1061219728997218700, 943145926079789000, 823910252538908000, 703659687098911400, 582542578877010800, 460708734346324150, 338310479240745520, 215511258221911400, 92628710519347280]

/-- `ODD_W_45`, /repo/src/legendre/bogaert/data.rs l.214 (literals times 10^20) -/
def ODD_W_45 : List Int := [3431359817623140000, 3425291647165106000, 3415185977541012500, 3401054720622908000, 3382914533369793500, 3360786798193575500, 3334697597754984000, 3304677684219179000, 3270762443007278000, 3232991851086540000, 3191410429848369500, 3146067192629709000, 3097015586939654400, 3044313431459439600, 2988022847890037600, 2928210187727748000, 2864945954054102400, 2798304718432316500, 2728365033008298000, 2655209337919890700, 2578923864123601500, 2499598531753496000, 2417326844132288000, 2332205777559880400, 2244335667009737500, 2153820087868566600, 2060765733859846000, 1965282291296914500, 1867482309816812700, 1767481069752190400, 1665396446306124000, 1561348770705006000, 1455460688520869600, 1347857015383098000, 1238664590355674300, 1128012127376968300, 1016030065441547700, 902850418923448700, 788606631462890200, 673433443226888460, 557466804747978900, 440843974730267640, 323704550797210500, 206198712203222970, 88624124066941420]

/-- `ODD_W_46`, /repo/src/legendre/bogaert/data.rs l.215 (literals times 10^20) -/
def ODD_W_46 : List Int := [3358047670273291000, 3352360509236690000, 3342889041048296000, 3329643957561579000, 3312640210470322400, 3291896994430459000, 3267437725392241500, 3239290014167229400, 3207485635259922000, 3172060490999231000, 3133054571010280400, 3090511907072293600, 3044480523413531000, 2995012382499392300, 2942163326374897700, 2885993013627770700, 2826564852043306600, 2763945927027072000, 2698206925876273400, 2629422057985327300, 2557668971075783800, 2483028663545258300, 2405585393034465800, 2325426581315775300, 2242642715610957200, 2157327246449981800, 2069576482186873500, 1979489480292793000, 1887167935550803500, 1792716065281371400, 1696240491732901000, 1597850121778211800, 1497656024067188200, 1395771303800797000, 1292310975318535100, 1187391832744712600, 1081132319054249000, 973652394188768800, 865073403542864800, 755517950076982100, 645109779431127600, 533973709816921500, 422235738240660800, 310024040309931670, 197476876868680820, 84873716806791110]

/-- `ODD_W_47`, /repo/src/legendre/bogaert/data.rs l.216 (literals times 10^20) -/
def ODD_W_47 : List Int := [3287800959763195000, 3282463569369918600, 3273574336068393000, 3261142878598215000, 3245182648620326000, 3225710916161441500, 3202748750926770000, 3176320999501228000, 3146456258463840000, 3113186843444399800, 3076548754155891300, 3036581635440506800, 2993328734371411200, 2946836853456688200, 2897156299996101300, 2844340831645486200, 2788447598247691500, 2729537079993022200, 2667673021976135400, 2602922365220227200, 2535355174243201400, 2465044561244262000, 2392066606993061000, 2316500278507139000, 2238427343606939200, 2157932282441140000, 2075102196078490000, 1990026712265721000, 1902797888454570500, 1813510112204514600, 1722259999071698600, 1629146288099104400, 1534269735028835600, 1437733003365908100, 1339640553436828600, 1240098529611606000, 1139214645908584500, 1037098070311609700, 933859308387639600, 829610087453099000, 724463244393320000, 618532626103332400, 511933032992771800, 404780331637175950, 297192424081819100, 189296837792293590, 81356424945411650]

/-- `ODD_W_48`, /repo/src/legendre/bogaert/data.rs l.217 (literals times 10^20) -/
def ODD_W_48 : List Int := [3220431459661350600, 3215415737958550500, 3207061987527280000, 3195378880670864000, 3180378546007149000, 3162076555877401500, 3140491910180172000, 3115647016646904200, 3087567667579765500, 3056283013075858400, 3021825530765601500, 2984230992096703000, 2943538425198732200, 2899790074366843200, 2853031356206718600, 2803310812486267700, 2750680059743034300, 2695193735699644000, 2636909442542935000, 2575887687125678500, 2512191818153004800, 2445887960418785000, 2377044946160306700, 2305734243602599500, 2232029882766713000, 2156008378619171700, 2077748651642657000, 1997331945910804700, 1914841744752813000, 1830363684096414000, 1743985463580780300, 1655796755534245600, 1565889111915692000, 1474355869323695000, 1381292052185304300, 1286794274249338600, 1190960638533075700, 1093890635919594900, 995685042708404500, 896445817669800000, 796275999786549500, 695279609646940500, 593561563078822300, 491227626216602800, 388384532948929430, 285140924321305570, 181614639821003960, 78053322194256130]

/-- `ODD_W_49`, /repo/src/legendre/bogaert/data.rs l.218 (literals times 10^20) -/
def ODD_W_49 : List Int := [3155766036791123000, 3151046648162835000, 3143186227722155000, 3132192610907518000, 3118076756395816000, 3100852735178559500, 3080537716535628000, 3057151950920578000, 3030718749774580600, 3001264462289103500, 2968818449140510000, 2933413053222750500, 2895083567407331000, 2853868199362695000, 2809808033468091200, 2762946989859901000, 2713331780651255000, 2661011863368585200, 2606039391651548300, 2548469163265475500, 2488358565478194700, 2425767517855707800, 2360758412533789400, 2293396052025105400, 2223747584623937300, 2151882437473022500, 2077872247359421200, 2001790789308656400, 1923713903048718600, 1843719417417850000, 1761887072792438000, 1678298441613870800, 1593036847096085000, 1506187280199023300, 1417836314957944500, 1328072022265728400, 1236983882217516200, 1144662695149825300, 1051200491552474500, 956690441132613600, 861226761547888800, 764904627933525800, 667820086057509800, 570069977339592700, 471751903752083000, 372964348724303500, 273807587362687830, 174390695821924500, 74947364673740530]

/-- `CL`, /repo/src/legendre/bogaert/data.rs l.226 (literals times 10^20) -/
def CL : List Int := [100000000000000000000, 100000000000000000000, -50000000000000000000, -150000000000000000000, 37500000000000000000, 187500000000000000000, -31250000000000000000, -218750000000000000000, 27343750000000000000, 246093750000000000000, -24609375000000000000, -270703125000000000000, 22558593750000000000, 293261718750000000000, -20947265625000000000, -314208984375000000000, 19638061523437500000, 333847045898437500000, -18547058105468750000, -352394104003906250000, 17619705200195313000, 370013809204101560000, -16818809509277344000, -386832618713378900000, 16118025779724120000, 402950644493103000000, -15498101711273193000, -418448746204376200000, 14944598078727722000, 433393344283103900000, -14446444809436798000, -447839789092540700000, 13994993409141898000, 461834782501682600000, -13583375955931842000, -475418158457614500000, 13206059957155958000, 488624218414770400000, -12858532063546590000, -501482750478317000000, 12537068761957926000, 514019819240274960000, -12238567124768451000, -526258386365043400000, 11960417871932805000, 538218804236976200000, -11700408787760352000, -549919213024736600000, 11456650271348678000, 561375863296085200000, -11227517265921705000, -572603380562006950000, 11011603472346287000, 583614984034353200000, -10807684889525060000, -594422668923878300000, 10614690516497827000, 605037359440376100000, -10431678611040968000, -615469038051417100000, 10257817300856951000, 625726855352274000000, -10092368634714098000, -635819223986988100000, 9934675374796689000, 645753899361784800000, -9784149990330074000, -655538049352114900000, 9640265431648748000, 665178314783763600000, -9502547354053767000, -674680862137817400000, 9370567529691909000, 684051429667509300000, -9243938238750125000, -693295367906259400000, 9122307472450782000, 702417675378710300000, -9005354812547567000, -711423030191257800000, 8892787877390723000, 720315818068648550000, -8784339244739617000, -729100157313388100000, 8679763777540335000, 737779921090928500000, -8578836291754982000, -746358757382683450000, 8481349515712312000, 754840106898395700000, -8387112298871065000, -763227219197266800000, 8295948034752901000, 771523167232019700000, -8207693268425742000, -779730860500445500000, 8122196463546306000, 787853056963991800000, -8039316907795835000, -795892373871787600000, 7958923738717877000]

/-- `ODD_THETA_ZEROS`, /repo/src/legendre/bogaert/data.rs l.114 -/
def ODD_THETA_ZEROS : List (List Int) := [ODD_THETA_ZERO_1, ODD_THETA_ZERO_2, ODD_THETA_ZERO_3, ODD_THETA_ZERO_4, ODD_THETA_ZERO_5, ODD_THETA_ZERO_6, ODD_THETA_ZERO_7, ODD_THETA_ZERO_8, ODD_THETA_ZERO_9, ODD_THETA_ZERO_10, ODD_THETA_ZERO_11, ODD_THETA_ZERO_12, ODD_THETA_ZERO_13, ODD_THETA_ZERO_14, ODD_THETA_ZERO_15, ODD_THETA_ZERO_16, ODD_THETA_ZERO_17, ODD_THETA_ZERO_18, ODD_THETA_ZERO_19, ODD_THETA_ZERO_20, ODD_THETA_ZERO_21, ODD_THETA_ZERO_22, ODD_THETA_ZERO_23, ODD_THETA_ZERO_24, ODD_THETA_ZERO_25, ODD_THETA_ZERO_26, ODD_THETA_ZERO_27, ODD_THETA_ZERO_28, ODD_THETA_ZERO_29, ODD_THETA_ZERO_30, ODD_THETA_ZERO_31, ODD_THETA_ZERO_32, ODD_THETA_ZERO_33, ODD_THETA_ZERO_34, ODD_THETA_ZERO_35, ODD_THETA_ZERO_36, ODD_THETA_ZERO_37, ODD_THETA_ZERO_38, ODD_THETA_ZERO_39, ODD_THETA_ZERO_40, ODD_THETA_ZERO_41, ODD_THETA_ZERO_42, ODD_THETA_ZERO_43, ODD_THETA_ZERO_44, ODD_THETA_ZERO_45, ODD_THETA_ZERO_46, ODD_THETA_ZERO_47, ODD_THETA_ZERO_48, ODD_THETA_ZERO_49]

/-- `EVEN_THETA_ZEROS`, /repo/src/legendre/bogaert/data.rs l.116 -/
def EVEN_THETA_ZEROS : List (List Int) := [EVEN_THETA_ZERO_1, EVEN_THETA_ZERO_2, EVEN_THETA_ZERO_3, EVEN_THETA_ZERO_4, EVEN_THETA_ZERO_5, EVEN_THETA_ZERO_6, EVEN_THETA_ZERO_7, EVEN_THETA_ZERO_8, EVEN_THETA_ZERO_9, EVEN_THETA_ZERO_10, EVEN_THETA_ZERO_11, EVEN_THETA_ZERO_12, EVEN_THETA_ZERO_13, EVEN_THETA_ZERO_14, EVEN_THETA_ZERO_15, EVEN_THETA_ZERO_16, EVEN_THETA_ZERO_17, EVEN_THETA_ZERO_18, EVEN_THETA_ZERO_19, EVEN_THETA_ZERO_20, EVEN_THETA_ZERO_21, EVEN_THETA_ZERO_22, EVEN_THETA_ZERO_23, EVEN_THETA_ZERO_24, EVEN_THETA_ZERO_25, EVEN_THETA_ZERO_26, EVEN_THETA_ZERO_27, EVEN_THETA_ZERO_28, EVEN_THETA_ZERO_29, EVEN_THETA_ZERO_30, EVEN_THETA_ZERO_31, EVEN_THETA_ZERO_32, EVEN_THETA_ZERO_33, EVEN_THETA_ZERO_34, EVEN_THETA_ZERO_35, EVEN_THETA_ZERO_36, EVEN_THETA_ZERO_37, EVEN_THETA_ZERO_38, EVEN_THETA_ZERO_39, EVEN_THETA_ZERO_40, EVEN_THETA_ZERO_41, EVEN_THETA_ZERO_42, EVEN_THETA_ZERO_43, EVEN_THETA_ZERO_44, EVEN_THETA_ZERO_45, EVEN_THETA_ZERO_46, EVEN_THETA_ZERO_47, EVEN_THETA_ZERO_48, EVEN_THETA_ZERO_49, EVEN_THETA_ZERO_50]

/-- `ODD_WEIGHTS`, /repo/src/legendre/bogaert/data.rs l.221 -/
def ODD_WEIGHTS : List (List Int) := [ODD_W_1, ODD_W_2, ODD_W_3, ODD_W_4, ODD_W_5, ODD_W_6, ODD_W_7, ODD_W_8, ODD_W_9, ODD_W_10, ODD_W_11, ODD_W_12, ODD_W_13, ODD_W_14, ODD_W_15, ODD_W_16, ODD_W_17, ODD_W_18, ODD_W_19, ODD_W_20, ODD_W_21, ODD_W_22, ODD_W_23, ODD_W_24, ODD_W_25, ODD_W_26, ODD_W_27, ODD_W_28, ODD_W_29, ODD_W_30, ODD_W_31, ODD_W_32, ODD_W_33, ODD_W_34, ODD_W_35, ODD_W_36, ODD_W_37, ODD_W_38, ODD_W_39, ODD_W_40, ODD_W_41, ODD_W_42, ODD_W_43, ODD_W_44, ODD_W_45, ODD_W_46, ODD_W_47, ODD_W_48, ODD_W_49]

/-- `EVEN_WEIGHTS`, /repo/src/legendre/bogaert/data.rs l.223 -/
def EVEN_WEIGHTS : List (List Int) := [EVEN_W_1, EVEN_W_2, EVEN_W_3, EVEN_W_4, EVEN_W_5, EVEN_W_6, EVEN_W_7, EVEN_W_8, EVEN_W_9, EVEN_W_10, EVEN_W_11, EVEN_W_12, EVEN_W_13, EVEN_W_14, EVEN_W_15, EVEN_W_16, EVEN_W_17, EVEN_W_18, EVEN_W_19, EVEN_W_20, EVEN_W_21, EVEN_W_22, EVEN_W_23, EVEN_W_24, EVEN_W_25, EVEN_W_26, EVEN_W_27, EVEN_W_28, EVEN_W_29, EVEN_W_30, EVEN_W_31, EVEN_W_32, EVEN_W_33, EVEN_W_34, EVEN_W_35, EVEN_W_36, EVEN_W_37, EVEN_W_38, EVEN_W_39, EVEN_W_40, EVEN_W_41, EVEN_W_42, EVEN_W_43, EVEN_W_44, EVEN_W_45, EVEN_W_46, EVEN_W_47, EVEN_W_48, EVEN_W_49, EVEN_W_50]

end GaussQuad.LegendreData

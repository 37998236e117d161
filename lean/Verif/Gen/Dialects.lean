import Verif.Dialect

/-! GENERATED by tools/extract_dialects.py from packages/gurke/src/gurke/gherkin-languages.json. -/

namespace Gherkin

/-- packages/gurke/src/gurke/gherkin-languages.json:2 `af` -/
def dial_af : Dialect where
  feature := [py"Funksie", py"Besigheid Behoefte", py"Vermoë"]
  rule := [py"Regel"]
  scenario := [py"Voorbeeld", py"Situasie"]
  scenarioOutline := [py"Situasie Uiteensetting"]
  background := [py"Agtergrond"]
  examples := [py"Voorbeelde"]
  given := [py"* ", py"Gegewe "]
  when_ := [py"* ", py"Wanneer "]
  then_ := [py"* ", py"Dan "]
  and_ := [py"* ", py"En "]
  but_ := [py"* ", py"Maar "]

/-- packages/gurke/src/gurke/gherkin-languages.json:47 `am` -/
def dial_am : Dialect where
  feature := [py"Ֆունկցիոնալություն", py"Հատկություն"]
  rule := [py"Rule"]
  scenario := [py"Օրինակ", py"Սցենար"]
  scenarioOutline := [py"Սցենարի կառուցվացքը"]
  background := [py"Կոնտեքստ"]
  examples := [py"Օրինակներ"]
  given := [py"* ", py"Դիցուք "]
  when_ := [py"* ", py"Եթե ", py"Երբ "]
  then_ := [py"* ", py"Ապա "]
  and_ := [py"* ", py"Եվ "]
  but_ := [py"* ", py"Բայց "]

/-- packages/gurke/src/gurke/gherkin-languages.json:92 `an` -/
def dial_an : Dialect where
  feature := [py"Caracteristica"]
  rule := [py"Rule"]
  scenario := [py"Eixemplo", py"Caso"]
  scenarioOutline := [py"Esquema del caso"]
  background := [py"Antecedents"]
  examples := [py"Eixemplos"]
  given := [py"* ", py"Dau ", py"Dada ", py"Daus ", py"Dadas "]
  when_ := [py"* ", py"Cuan "]
  then_ := [py"* ", py"Alavez ", py"Allora ", py"Antonces "]
  and_ := [py"* ", py"Y ", py"E "]
  but_ := [py"* ", py"Pero "]

/-- packages/gurke/src/gurke/gherkin-languages.json:141 `ar` -/
def dial_ar : Dialect where
  feature := [py"خاصية"]
  rule := [py"Rule"]
  scenario := [py"مثال", py"سيناريو"]
  scenarioOutline := [py"سيناريو مخطط"]
  background := [py"الخلفية"]
  examples := [py"امثلة"]
  given := [py"* ", py"بفرض "]
  when_ := [py"* ", py"متى ", py"عندما "]
  then_ := [py"* ", py"اذاً ", py"ثم "]
  and_ := [py"* ", py"و "]
  but_ := [py"* ", py"لكن "]

/-- packages/gurke/src/gurke/gherkin-languages.json:186 `ast` -/
def dial_ast : Dialect where
  feature := [py"Carauterística"]
  rule := [py"Rule"]
  scenario := [py"Exemplo", py"Casu"]
  scenarioOutline := [py"Esbozu del casu"]
  background := [py"Antecedentes"]
  examples := [py"Exemplos"]
  given := [py"* ", py"Dáu ", py"Dada ", py"Daos ", py"Daes "]
  when_ := [py"* ", py"Cuando "]
  then_ := [py"* ", py"Entós "]
  and_ := [py"* ", py"Y ", py"Ya "]
  but_ := [py"* ", py"Peru "]

/-- packages/gurke/src/gurke/gherkin-languages.json:233 `az` -/
def dial_az : Dialect where
  feature := [py"Özəllik"]
  rule := [py"Rule"]
  scenario := [py"Nümunə", py"Ssenari"]
  scenarioOutline := [py"Ssenarinin strukturu"]
  background := [py"Keçmiş", py"Kontekst"]
  examples := [py"Nümunələr"]
  given := [py"* ", py"Tutaq ki ", py"Verilir "]
  when_ := [py"* ", py"Əgər ", py"Nə vaxt ki "]
  then_ := [py"* ", py"O halda "]
  and_ := [py"* ", py"Və ", py"Həm "]
  but_ := [py"* ", py"Amma ", py"Ancaq "]

/-- packages/gurke/src/gurke/gherkin-languages.json:281 `be` -/
def dial_be : Dialect where
  feature := [py"Функцыянальнасць", py"Фіча"]
  rule := [py"Правілы"]
  scenario := [py"Сцэнарый", py"Cцэнар"]
  scenarioOutline := [py"Шаблон сцэнарыя", py"Узор сцэнара"]
  background := [py"Кантэкст"]
  examples := [py"Прыклады"]
  given := [py"* ", py"Няхай ", py"Дадзена "]
  when_ := [py"* ", py"Калі "]
  then_ := [py"* ", py"Тады "]
  and_ := [py"* ", py"I ", py"Ды ", py"Таксама "]
  but_ := [py"* ", py"Але ", py"Інакш "]

/-- packages/gurke/src/gurke/gherkin-languages.json:330 `bg` -/
def dial_bg : Dialect where
  feature := [py"Функционалност"]
  rule := [py"Правило"]
  scenario := [py"Пример", py"Сценарий"]
  scenarioOutline := [py"Рамка на сценарий"]
  background := [py"Предистория"]
  examples := [py"Примери"]
  given := [py"* ", py"Дадено "]
  when_ := [py"* ", py"Когато "]
  then_ := [py"* ", py"То "]
  and_ := [py"* ", py"И "]
  but_ := [py"* ", py"Но "]

/-- packages/gurke/src/gurke/gherkin-languages.json:373 `bm` -/
def dial_bm : Dialect where
  feature := [py"Fungsi"]
  rule := [py"Rule"]
  scenario := [py"Senario", py"Situasi", py"Keadaan"]
  scenarioOutline := [py"Kerangka Senario", py"Kerangka Situasi", py"Kerangka Keadaan", py"Garis Panduan Senario"]
  background := [py"Latar Belakang"]
  examples := [py"Contoh"]
  given := [py"* ", py"Diberi ", py"Bagi "]
  when_ := [py"* ", py"Apabila "]
  then_ := [py"* ", py"Maka ", py"Kemudian "]
  and_ := [py"* ", py"Dan "]
  but_ := [py"* ", py"Tetapi ", py"Tapi "]

/-- packages/gurke/src/gurke/gherkin-languages.json:423 `bs` -/
def dial_bs : Dialect where
  feature := [py"Karakteristika"]
  rule := [py"Rule"]
  scenario := [py"Primjer", py"Scenariju", py"Scenario"]
  scenarioOutline := [py"Scenariju-obris", py"Scenario-outline"]
  background := [py"Pozadina"]
  examples := [py"Primjeri"]
  given := [py"* ", py"Dato "]
  when_ := [py"* ", py"Kada "]
  then_ := [py"* ", py"Zatim "]
  and_ := [py"* ", py"I ", py"A "]
  but_ := [py"* ", py"Ali "]

/-- packages/gurke/src/gurke/gherkin-languages.json:469 `ca` -/
def dial_ca : Dialect where
  feature := [py"Característica", py"Funcionalitat"]
  rule := [py"Rule"]
  scenario := [py"Exemple", py"Escenari"]
  scenarioOutline := [py"Esquema de l'escenari"]
  background := [py"Rerefons", py"Antecedents"]
  examples := [py"Exemples"]
  given := [py"* ", py"Donat ", py"Donada ", py"Atès ", py"Atesa "]
  when_ := [py"* ", py"Quan "]
  then_ := [py"* ", py"Aleshores ", py"Cal "]
  and_ := [py"* ", py"I "]
  but_ := [py"* ", py"Però "]

/-- packages/gurke/src/gurke/gherkin-languages.json:518 `cs` -/
def dial_cs : Dialect where
  feature := [py"Požadavek"]
  rule := [py"Pravidlo"]
  scenario := [py"Příklad", py"Scénář"]
  scenarioOutline := [py"Náčrt Scénáře", py"Osnova scénáře"]
  background := [py"Pozadí", py"Kontext"]
  examples := [py"Příklady"]
  given := [py"* ", py"Pokud ", py"Za předpokladu "]
  when_ := [py"* ", py"Když "]
  then_ := [py"* ", py"Pak "]
  and_ := [py"* ", py"A také ", py"A "]
  but_ := [py"* ", py"Ale "]

/-- packages/gurke/src/gurke/gherkin-languages.json:565 `cy-GB` -/
def dial_cy_GB : Dialect where
  feature := [py"Arwedd"]
  rule := [py"Rule"]
  scenario := [py"Enghraifft", py"Scenario"]
  scenarioOutline := [py"Scenario Amlinellol"]
  background := [py"Cefndir"]
  examples := [py"Enghreifftiau"]
  given := [py"* ", py"Anrhegedig a "]
  when_ := [py"* ", py"Pryd "]
  then_ := [py"* ", py"Yna "]
  and_ := [py"* ", py"A "]
  but_ := [py"* ", py"Ond "]

/-- packages/gurke/src/gurke/gherkin-languages.json:608 `da` -/
def dial_da : Dialect where
  feature := [py"Egenskab"]
  rule := [py"Rule"]
  scenario := [py"Eksempel", py"Scenarie"]
  scenarioOutline := [py"Abstrakt Scenario"]
  background := [py"Baggrund"]
  examples := [py"Eksempler"]
  given := [py"* ", py"Givet "]
  when_ := [py"* ", py"Når "]
  then_ := [py"* ", py"Så "]
  and_ := [py"* ", py"Og "]
  but_ := [py"* ", py"Men "]

/-- packages/gurke/src/gurke/gherkin-languages.json:651 `de` -/
def dial_de : Dialect where
  feature := [py"Funktionalität", py"Funktion"]
  rule := [py"Rule", py"Regel"]
  scenario := [py"Beispiel", py"Szenario"]
  scenarioOutline := [py"Szenariogrundriss", py"Szenarien"]
  background := [py"Grundlage", py"Hintergrund", py"Voraussetzungen", py"Vorbedingungen"]
  examples := [py"Beispiele"]
  given := [py"* ", py"Angenommen ", py"Gegeben sei ", py"Gegeben seien "]
  when_ := [py"* ", py"Wenn "]
  then_ := [py"* ", py"Dann "]
  and_ := [py"* ", py"Und "]
  but_ := [py"* ", py"Aber "]

/-- packages/gurke/src/gurke/gherkin-languages.json:702 `el` -/
def dial_el : Dialect where
  feature := [py"Δυνατότητα", py"Λειτουργία"]
  rule := [py"Rule"]
  scenario := [py"Παράδειγμα", py"Σενάριο"]
  scenarioOutline := [py"Περιγραφή Σεναρίου", py"Περίγραμμα Σεναρίου"]
  background := [py"Υπόβαθρο"]
  examples := [py"Παραδείγματα", py"Σενάρια"]
  given := [py"* ", py"Δεδομένου "]
  when_ := [py"* ", py"Όταν "]
  then_ := [py"* ", py"Τότε "]
  and_ := [py"* ", py"Και "]
  but_ := [py"* ", py"Αλλά "]

/-- packages/gurke/src/gurke/gherkin-languages.json:748 `em` -/
def dial_em : Dialect where
  feature := [py"📚"]
  rule := [py"Rule"]
  scenario := [py"🥒", py"📕"]
  scenarioOutline := [py"📖"]
  background := [py"💤"]
  examples := [py"📓"]
  given := [py"* ", py"😐"]
  when_ := [py"* ", py"🎬"]
  then_ := [py"* ", py"🙏"]
  and_ := [py"* ", py"😂"]
  but_ := [py"* ", py"😔"]

/-- packages/gurke/src/gurke/gherkin-languages.json:791 `en` -/
def dial_en : Dialect where
  feature := [py"Feature", py"Business Need", py"Ability"]
  rule := [py"Rule"]
  scenario := [py"Example", py"Scenario"]
  scenarioOutline := [py"Scenario Outline", py"Scenario Template"]
  background := [py"Background"]
  examples := [py"Examples", py"Scenarios"]
  given := [py"* ", py"Given "]
  when_ := [py"* ", py"When "]
  then_ := [py"* ", py"Then "]
  and_ := [py"* ", py"And "]
  but_ := [py"* ", py"But "]

/-- packages/gurke/src/gurke/gherkin-languages.json:838 `en-Scouse` -/
def dial_en_Scouse : Dialect where
  feature := [py"Feature"]
  rule := [py"Rule"]
  scenario := [py"The thing of it is"]
  scenarioOutline := [py"Wharrimean is"]
  background := [py"Dis is what went down"]
  examples := [py"Examples"]
  given := [py"* ", py"Givun ", py"Youse know when youse got "]
  when_ := [py"* ", py"Wun ", py"Youse know like when "]
  then_ := [py"* ", py"Dun ", py"Den youse gotta "]
  and_ := [py"* ", py"An "]
  but_ := [py"* ", py"Buh "]

/-- packages/gurke/src/gurke/gherkin-languages.json:883 `en-au` -/
def dial_en_au : Dialect where
  feature := [py"Pretty much"]
  rule := [py"Rule"]
  scenario := [py"Awww, look mate"]
  scenarioOutline := [py"Reckon it's like"]
  background := [py"First off"]
  examples := [py"You'll wanna"]
  given := [py"* ", py"Y'know "]
  when_ := [py"* ", py"It's just unbelievable "]
  then_ := [py"* ", py"But at the end of the day I reckon "]
  and_ := [py"* ", py"Too right "]
  but_ := [py"* ", py"Yeah nah "]

/-- packages/gurke/src/gurke/gherkin-languages.json:925 `en-lol` -/
def dial_en_lol : Dialect where
  feature := [py"OH HAI"]
  rule := [py"Rule"]
  scenario := [py"MISHUN"]
  scenarioOutline := [py"MISHUN SRSLY"]
  background := [py"B4"]
  examples := [py"EXAMPLZ"]
  given := [py"* ", py"I CAN HAZ "]
  when_ := [py"* ", py"WEN "]
  then_ := [py"* ", py"DEN "]
  and_ := [py"* ", py"AN "]
  but_ := [py"* ", py"BUT "]

/-- packages/gurke/src/gurke/gherkin-languages.json:967 `en-old` -/
def dial_en_old : Dialect where
  feature := [py"Hwaet", py"Hwæt"]
  rule := [py"Rule"]
  scenario := [py"Swa"]
  scenarioOutline := [py"Swa hwaer swa", py"Swa hwær swa"]
  background := [py"Aer", py"Ær"]
  examples := [py"Se the", py"Se þe", py"Se ðe"]
  given := [py"* ", py"Thurh ", py"Þurh ", py"Ðurh "]
  when_ := [py"* ", py"Bæþsealf ", py"Bæþsealfa ", py"Bæþsealfe ", py"Ciricæw ", py"Ciricæwe ", py"Ciricæwa "]
  then_ := [py"* ", py"Tha ", py"Þa ", py"Ða ", py"Tha the ", py"Þa þe ", py"Ða ðe "]
  and_ := [py"* ", py"Ond ", py"7 "]
  but_ := [py"* ", py"Ac "]

/-- packages/gurke/src/gurke/gherkin-languages.json:1027 `en-pirate` -/
def dial_en_pirate : Dialect where
  feature := [py"Ahoy matey!"]
  rule := [py"Rule"]
  scenario := [py"Heave to"]
  scenarioOutline := [py"Shiver me timbers"]
  background := [py"Yo-ho-ho"]
  examples := [py"Dead men tell no tales"]
  given := [py"* ", py"Gangway! "]
  when_ := [py"* ", py"Blimey! "]
  then_ := [py"* ", py"Let go and haul "]
  and_ := [py"* ", py"Aye "]
  but_ := [py"* ", py"Avast! "]

/-- packages/gurke/src/gurke/gherkin-languages.json:1069 `en-tx` -/
def dial_en_tx : Dialect where
  feature := [py"This ain’t my first rodeo", py"All gussied up"]
  rule := [py"Rule "]
  scenario := [py"All hat and no cattle"]
  scenarioOutline := [py"Serious as a snake bite", py"Busy as a hound in flea season"]
  background := [py"Lemme tell y'all a story"]
  examples := [py"Now that's a story longer than a cattle drive in July"]
  given := [py"Fixin' to ", py"All git out "]
  when_ := [py"Quick out of the chute "]
  then_ := [py"There’s no tree but bears some fruit "]
  and_ := [py"Come hell or high water "]
  but_ := [py"Well now hold on, I'll you what "]

/-- packages/gurke/src/gurke/gherkin-languages.json:1109 `eo` -/
def dial_eo : Dialect where
  feature := [py"Trajto"]
  rule := [py"Rule"]
  scenario := [py"Ekzemplo", py"Scenaro", py"Kazo"]
  scenarioOutline := [py"Konturo de la scenaro", py"Skizo", py"Kazo-skizo"]
  background := [py"Fono"]
  examples := [py"Ekzemploj"]
  given := [py"* ", py"Donitaĵo ", py"Komence "]
  when_ := [py"* ", py"Se "]
  then_ := [py"* ", py"Do "]
  and_ := [py"* ", py"Kaj "]
  but_ := [py"* ", py"Sed "]

/-- packages/gurke/src/gurke/gherkin-languages.json:1156 `es` -/
def dial_es : Dialect where
  feature := [py"Característica", py"Necesidad del negocio", py"Requisito"]
  rule := [py"Regla", py"Regla de negocio"]
  scenario := [py"Ejemplo", py"Escenario"]
  scenarioOutline := [py"Esquema del escenario"]
  background := [py"Antecedentes"]
  examples := [py"Ejemplos"]
  given := [py"* ", py"Dado ", py"Dada ", py"Dados ", py"Dadas "]
  when_ := [py"* ", py"Cuando "]
  then_ := [py"* ", py"Entonces "]
  and_ := [py"* ", py"Y ", py"E "]
  but_ := [py"* ", py"Pero "]

/-- packages/gurke/src/gurke/gherkin-languages.json:1206 `et` -/
def dial_et : Dialect where
  feature := [py"Omadus"]
  rule := [py"Reegel"]
  scenario := [py"Juhtum", py"Stsenaarium"]
  scenarioOutline := [py"Raamjuhtum", py"Raamstsenaarium"]
  background := [py"Taust"]
  examples := [py"Juhtumid"]
  given := [py"* ", py"Eeldades "]
  when_ := [py"* ", py"Kui "]
  then_ := [py"* ", py"Siis "]
  and_ := [py"* ", py"Ja "]
  but_ := [py"* ", py"Kuid "]

/-- packages/gurke/src/gurke/gherkin-languages.json:1250 `fa` -/
def dial_fa : Dialect where
  feature := [py"وِیژگی"]
  rule := [py"Rule"]
  scenario := [py"مثال", py"سناریو"]
  scenarioOutline := [py"الگوی سناریو"]
  background := [py"زمینه"]
  examples := [py"نمونه ها"]
  given := [py"* ", py"با فرض "]
  when_ := [py"* ", py"هنگامی "]
  then_ := [py"* ", py"آنگاه "]
  and_ := [py"* ", py"و "]
  but_ := [py"* ", py"اما "]

/-- packages/gurke/src/gurke/gherkin-languages.json:1293 `fi` -/
def dial_fi : Dialect where
  feature := [py"Ominaisuus"]
  rule := [py"Rule"]
  scenario := [py"Tapaus"]
  scenarioOutline := [py"Tapausaihio"]
  background := [py"Tausta"]
  examples := [py"Tapaukset"]
  given := [py"* ", py"Oletetaan "]
  when_ := [py"* ", py"Kun "]
  then_ := [py"* ", py"Niin "]
  and_ := [py"* ", py"Ja "]
  but_ := [py"* ", py"Mutta "]

/-- packages/gurke/src/gurke/gherkin-languages.json:1335 `fr` -/
def dial_fr : Dialect where
  feature := [py"Fonctionnalité"]
  rule := [py"Règle"]
  scenario := [py"Exemple", py"Scénario"]
  scenarioOutline := [py"Plan du scénario", py"Plan du Scénario"]
  background := [py"Contexte"]
  examples := [py"Exemples"]
  given := [py"* ", py"Soit ", py"Sachant que ", py"Sachant qu'", py"Sachant ", py"Etant donné que ", py"Etant donné qu'", py"Etant donné ", py"Etant donnée ", py"Etant donnés ", py"Etant données ", py"Étant donné que ", py"Étant donné qu'", py"Étant donné ", py"Étant donnée ", py"Étant donnés ", py"Étant données "]
  when_ := [py"* ", py"Quand ", py"Lorsque ", py"Lorsqu'"]
  then_ := [py"* ", py"Alors ", py"Donc "]
  and_ := [py"* ", py"Et que ", py"Et qu'", py"Et "]
  but_ := [py"* ", py"Mais que ", py"Mais qu'", py"Mais "]

/-- packages/gurke/src/gurke/gherkin-languages.json:1401 `ga` -/
def dial_ga : Dialect where
  feature := [py"Gné"]
  rule := [py"Rule"]
  scenario := [py"Sampla", py"Cás"]
  scenarioOutline := [py"Cás Achomair"]
  background := [py"Cúlra"]
  examples := [py"Samplaí"]
  given := [py"* ", py"Cuir i gcás go", py"Cuir i gcás nach", py"Cuir i gcás gur", py"Cuir i gcás nár"]
  when_ := [py"* ", py"Nuair a", py"Nuair nach", py"Nuair ba", py"Nuair nár"]
  then_ := [py"* ", py"Ansin"]
  and_ := [py"* ", py"Agus"]
  but_ := [py"* ", py"Ach"]

/-- packages/gurke/src/gurke/gherkin-languages.json:1450 `gj` -/
def dial_gj : Dialect where
  feature := [py"લક્ષણ", py"વ્યાપાર જરૂર", py"ક્ષમતા"]
  rule := [py"Rule"]
  scenario := [py"ઉદાહરણ", py"સ્થિતિ"]
  scenarioOutline := [py"પરિદ્દશ્ય રૂપરેખા", py"પરિદ્દશ્ય ઢાંચો"]
  background := [py"બેકગ્રાઉન્ડ"]
  examples := [py"ઉદાહરણો"]
  given := [py"* ", py"આપેલ છે "]
  when_ := [py"* ", py"ક્યારે "]
  then_ := [py"* ", py"પછી "]
  and_ := [py"* ", py"અને "]
  but_ := [py"* ", py"પણ "]

/-- packages/gurke/src/gurke/gherkin-languages.json:1496 `gl` -/
def dial_gl : Dialect where
  feature := [py"Característica"]
  rule := [py"Rule"]
  scenario := [py"Exemplo", py"Escenario"]
  scenarioOutline := [py"Esbozo do escenario"]
  background := [py"Contexto"]
  examples := [py"Exemplos"]
  given := [py"* ", py"Dado ", py"Dada ", py"Dados ", py"Dadas "]
  when_ := [py"* ", py"Cando "]
  then_ := [py"* ", py"Entón ", py"Logo "]
  and_ := [py"* ", py"E "]
  but_ := [py"* ", py"Mais ", py"Pero "]

/-- packages/gurke/src/gurke/gherkin-languages.json:1544 `he` -/
def dial_he : Dialect where
  feature := [py"תכונה"]
  rule := [py"כלל"]
  scenario := [py"דוגמא", py"תרחיש"]
  scenarioOutline := [py"תבנית תרחיש"]
  background := [py"רקע"]
  examples := [py"דוגמאות"]
  given := [py"* ", py"בהינתן "]
  when_ := [py"* ", py"כאשר "]
  then_ := [py"* ", py"אז ", py"אזי "]
  and_ := [py"* ", py"וגם "]
  but_ := [py"* ", py"אבל "]

/-- packages/gurke/src/gurke/gherkin-languages.json:1588 `hi` -/
def dial_hi : Dialect where
  feature := [py"रूप लेख"]
  rule := [py"नियम"]
  scenario := [py"परिदृश्य"]
  scenarioOutline := [py"परिदृश्य रूपरेखा"]
  background := [py"पृष्ठभूमि"]
  examples := [py"उदाहरण"]
  given := [py"* ", py"अगर ", py"यदि ", py"चूंकि "]
  when_ := [py"* ", py"जब ", py"कदा "]
  then_ := [py"* ", py"तब ", py"तदा "]
  and_ := [py"* ", py"और ", py"तथा "]
  but_ := [py"* ", py"पर ", py"परन्तु ", py"किन्तु "]

/-- packages/gurke/src/gurke/gherkin-languages.json:1637 `hr` -/
def dial_hr : Dialect where
  feature := [py"Osobina", py"Mogućnost", py"Mogucnost"]
  rule := [py"Rule"]
  scenario := [py"Primjer", py"Scenarij"]
  scenarioOutline := [py"Skica", py"Koncept"]
  background := [py"Pozadina"]
  examples := [py"Primjeri", py"Scenariji"]
  given := [py"* ", py"Zadan ", py"Zadani ", py"Zadano ", py"Ukoliko "]
  when_ := [py"* ", py"Kada ", py"Kad "]
  then_ := [py"* ", py"Onda "]
  and_ := [py"* ", py"I "]
  but_ := [py"* ", py"Ali "]

/-- packages/gurke/src/gurke/gherkin-languages.json:1688 `ht` -/
def dial_ht : Dialect where
  feature := [py"Karakteristik", py"Mak", py"Fonksyonalite"]
  rule := [py"Rule"]
  scenario := [py"Senaryo"]
  scenarioOutline := [py"Plan senaryo", py"Plan Senaryo", py"Senaryo deskripsyon", py"Senaryo Deskripsyon", py"Dyagram senaryo", py"Dyagram Senaryo"]
  background := [py"Kontèks", py"Istorik"]
  examples := [py"Egzanp"]
  given := [py"* ", py"Sipoze ", py"Sipoze ke ", py"Sipoze Ke "]
  when_ := [py"* ", py"Lè ", py"Le "]
  then_ := [py"* ", py"Lè sa a ", py"Le sa a "]
  and_ := [py"* ", py"Ak ", py"Epi ", py"E "]
  but_ := [py"* ", py"Men "]

/-- packages/gurke/src/gurke/gherkin-languages.json:1744 `hu` -/
def dial_hu : Dialect where
  feature := [py"Jellemző"]
  rule := [py"Szabály"]
  scenario := [py"Példa", py"Forgatókönyv"]
  scenarioOutline := [py"Forgatókönyv vázlat"]
  background := [py"Háttér"]
  examples := [py"Példák"]
  given := [py"* ", py"Amennyiben ", py"Adott "]
  when_ := [py"* ", py"Majd ", py"Ha ", py"Amikor "]
  then_ := [py"* ", py"Akkor "]
  and_ := [py"* ", py"És "]
  but_ := [py"* ", py"De "]

/-- packages/gurke/src/gurke/gherkin-languages.json:1790 `id` -/
def dial_id : Dialect where
  feature := [py"Fitur"]
  rule := [py"Rule", py"Aturan"]
  scenario := [py"Skenario"]
  scenarioOutline := [py"Skenario konsep", py"Garis-Besar Skenario"]
  background := [py"Dasar", py"Latar Belakang"]
  examples := [py"Contoh", py"Misal"]
  given := [py"* ", py"Dengan ", py"Diketahui ", py"Diasumsikan ", py"Bila ", py"Jika "]
  when_ := [py"* ", py"Ketika "]
  then_ := [py"* ", py"Maka ", py"Kemudian "]
  and_ := [py"* ", py"Dan "]
  but_ := [py"* ", py"Tapi ", py"Tetapi "]

/-- packages/gurke/src/gurke/gherkin-languages.json:1842 `is` -/
def dial_is : Dialect where
  feature := [py"Eiginleiki"]
  rule := [py"Rule"]
  scenario := [py"Atburðarás"]
  scenarioOutline := [py"Lýsing Atburðarásar", py"Lýsing Dæma"]
  background := [py"Bakgrunnur"]
  examples := [py"Dæmi", py"Atburðarásir"]
  given := [py"* ", py"Ef "]
  when_ := [py"* ", py"Þegar "]
  then_ := [py"* ", py"Þá "]
  and_ := [py"* ", py"Og "]
  but_ := [py"* ", py"En "]

/-- packages/gurke/src/gurke/gherkin-languages.json:1886 `it` -/
def dial_it : Dialect where
  feature := [py"Funzionalità", py"Esigenza di Business", py"Abilità"]
  rule := [py"Regola"]
  scenario := [py"Esempio", py"Scenario"]
  scenarioOutline := [py"Schema dello scenario"]
  background := [py"Contesto"]
  examples := [py"Esempi"]
  given := [py"* ", py"Dato ", py"Data ", py"Dati ", py"Date "]
  when_ := [py"* ", py"Quando "]
  then_ := [py"* ", py"Allora "]
  and_ := [py"* ", py"E "]
  but_ := [py"* ", py"Ma "]

/-- packages/gurke/src/gurke/gherkin-languages.json:1934 `ja` -/
def dial_ja : Dialect where
  feature := [py"フィーチャ", py"機能"]
  rule := [py"ルール"]
  scenario := [py"シナリオ"]
  scenarioOutline := [py"シナリオアウトライン", py"シナリオテンプレート", py"テンプレ", py"シナリオテンプレ"]
  background := [py"背景"]
  examples := [py"例", py"サンプル"]
  given := [py"* ", py"前提"]
  when_ := [py"* ", py"もし"]
  then_ := [py"* ", py"ならば"]
  and_ := [py"* ", py"且つ", py"かつ"]
  but_ := [py"* ", py"然し", py"しかし", py"但し", py"ただし"]

/-- packages/gurke/src/gurke/gherkin-languages.json:1985 `jv` -/
def dial_jv : Dialect where
  feature := [py"Fitur"]
  rule := [py"Rule"]
  scenario := [py"Skenario"]
  scenarioOutline := [py"Konsep skenario"]
  background := [py"Dasar"]
  examples := [py"Conto", py"Contone"]
  given := [py"* ", py"Nalika ", py"Nalikaning "]
  when_ := [py"* ", py"Manawa ", py"Menawa "]
  then_ := [py"* ", py"Njuk ", py"Banjur "]
  and_ := [py"* ", py"Lan "]
  but_ := [py"* ", py"Tapi ", py"Nanging ", py"Ananging "]

/-- packages/gurke/src/gurke/gherkin-languages.json:2033 `ka` -/
def dial_ka : Dialect where
  feature := [py"თვისება", py"მოთხოვნა"]
  rule := [py"წესი"]
  scenario := [py"მაგალითად", py"მაგალითი", py"მაგ", py"სცენარი"]
  scenarioOutline := [py"სცენარის ნიმუში", py"სცენარის შაბლონი", py"ნიმუში", py"შაბლონი"]
  background := [py"კონტექსტი"]
  examples := [py"მაგალითები"]
  given := [py"* ", py"მოცემული ", py"მოცემულია ", py"ვთქვათ "]
  when_ := [py"* ", py"როდესაც ", py"როცა ", py"როგორც კი ", py"თუ "]
  then_ := [py"* ", py"მაშინ "]
  and_ := [py"* ", py"და ", py"ასევე "]
  but_ := [py"* ", py"მაგრამ ", py"თუმცა "]

/-- packages/gurke/src/gurke/gherkin-languages.json:2089 `kn` -/
def dial_kn : Dialect where
  feature := [py"ಹೆಚ್ಚಳ"]
  rule := [py"Rule"]
  scenario := [py"ಉದಾಹರಣೆ", py"ಕಥಾಸಾರಾಂಶ"]
  scenarioOutline := [py"ವಿವರಣೆ"]
  background := [py"ಹಿನ್ನೆಲೆ"]
  examples := [py"ಉದಾಹರಣೆಗಳು"]
  given := [py"* ", py"ನೀಡಿದ "]
  when_ := [py"* ", py"ಸ್ಥಿತಿಯನ್ನು "]
  then_ := [py"* ", py"ನಂತರ "]
  and_ := [py"* ", py"ಮತ್ತು "]
  but_ := [py"* ", py"ಆದರೆ "]

/-- packages/gurke/src/gurke/gherkin-languages.json:2132 `ko` -/
def dial_ko : Dialect where
  feature := [py"기능"]
  rule := [py"Rule"]
  scenario := [py"시나리오"]
  scenarioOutline := [py"시나리오 개요"]
  background := [py"배경"]
  examples := [py"예"]
  given := [py"* ", py"조건", py"먼저"]
  when_ := [py"* ", py"만일", py"만약"]
  then_ := [py"* ", py"그러면"]
  and_ := [py"* ", py"그리고"]
  but_ := [py"* ", py"하지만", py"단"]

/-- packages/gurke/src/gurke/gherkin-languages.json:2177 `lt` -/
def dial_lt : Dialect where
  feature := [py"Savybė"]
  rule := [py"Rule"]
  scenario := [py"Pavyzdys", py"Scenarijus"]
  scenarioOutline := [py"Scenarijaus šablonas"]
  background := [py"Kontekstas"]
  examples := [py"Pavyzdžiai", py"Scenarijai", py"Variantai"]
  given := [py"* ", py"Duota "]
  when_ := [py"* ", py"Kai "]
  then_ := [py"* ", py"Tada "]
  and_ := [py"* ", py"Ir "]
  but_ := [py"* ", py"Bet "]

/-- packages/gurke/src/gurke/gherkin-languages.json:2222 `lu` -/
def dial_lu : Dialect where
  feature := [py"Funktionalitéit"]
  rule := [py"Rule"]
  scenario := [py"Beispill", py"Szenario"]
  scenarioOutline := [py"Plang vum Szenario"]
  background := [py"Hannergrond"]
  examples := [py"Beispiller"]
  given := [py"* ", py"ugeholl "]
  when_ := [py"* ", py"wann "]
  then_ := [py"* ", py"dann "]
  and_ := [py"* ", py"an ", py"a "]
  but_ := [py"* ", py"awer ", py"mä "]

/-- packages/gurke/src/gurke/gherkin-languages.json:2267 `lv` -/
def dial_lv : Dialect where
  feature := [py"Funkcionalitāte", py"Fīča"]
  rule := [py"Rule"]
  scenario := [py"Piemērs", py"Scenārijs"]
  scenarioOutline := [py"Scenārijs pēc parauga"]
  background := [py"Konteksts", py"Situācija"]
  examples := [py"Piemēri", py"Paraugs"]
  given := [py"* ", py"Kad "]
  when_ := [py"* ", py"Ja "]
  then_ := [py"* ", py"Tad "]
  and_ := [py"* ", py"Un "]
  but_ := [py"* ", py"Bet "]

/-- packages/gurke/src/gurke/gherkin-languages.json:2313 `mk-Cyrl` -/
def dial_mk_Cyrl : Dialect where
  feature := [py"Функционалност", py"Бизнис потреба", py"Можност"]
  rule := [py"Rule"]
  scenario := [py"Пример", py"Сценарио", py"На пример"]
  scenarioOutline := [py"Преглед на сценарија", py"Скица", py"Концепт"]
  background := [py"Контекст", py"Содржина"]
  examples := [py"Примери", py"Сценарија"]
  given := [py"* ", py"Дадено ", py"Дадена "]
  when_ := [py"* ", py"Кога "]
  then_ := [py"* ", py"Тогаш "]
  and_ := [py"* ", py"И "]
  but_ := [py"* ", py"Но "]

/-- packages/gurke/src/gurke/gherkin-languages.json:2364 `mk-Latn` -/
def dial_mk_Latn : Dialect where
  feature := [py"Funkcionalnost", py"Biznis potreba", py"Mozhnost"]
  rule := [py"Rule"]
  scenario := [py"Scenario", py"Na primer"]
  scenarioOutline := [py"Pregled na scenarija", py"Skica", py"Koncept"]
  background := [py"Kontekst", py"Sodrzhina"]
  examples := [py"Primeri", py"Scenaria"]
  given := [py"* ", py"Dadeno ", py"Dadena "]
  when_ := [py"* ", py"Koga "]
  then_ := [py"* ", py"Togash "]
  and_ := [py"* ", py"I "]
  but_ := [py"* ", py"No "]

/-- packages/gurke/src/gurke/gherkin-languages.json:2414 `mn` -/
def dial_mn : Dialect where
  feature := [py"Функц", py"Функционал"]
  rule := [py"Rule"]
  scenario := [py"Сценар"]
  scenarioOutline := [py"Сценарын төлөвлөгөө"]
  background := [py"Агуулга"]
  examples := [py"Тухайлбал"]
  given := [py"* ", py"Өгөгдсөн нь ", py"Анх "]
  when_ := [py"* ", py"Хэрэв "]
  then_ := [py"* ", py"Тэгэхэд ", py"Үүний дараа "]
  and_ := [py"* ", py"Мөн ", py"Тэгээд "]
  but_ := [py"* ", py"Гэхдээ ", py"Харин "]

/-- packages/gurke/src/gurke/gherkin-languages.json:2461 `ne` -/
def dial_ne : Dialect where
  feature := [py"सुविधा", py"विशेषता"]
  rule := [py"नियम"]
  scenario := [py"परिदृश्य"]
  scenarioOutline := [py"परिदृश्य रूपरेखा"]
  background := [py"पृष्ठभूमी"]
  examples := [py"उदाहरण", py"उदाहरणहरु"]
  given := [py"* ", py"दिइएको ", py"दिएको ", py"यदि "]
  when_ := [py"* ", py"जब "]
  then_ := [py"* ", py"त्यसपछि ", py"अनी "]
  and_ := [py"* ", py"र ", py"अनि "]
  but_ := [py"* ", py"तर "]

/-- packages/gurke/src/gurke/gherkin-languages.json:2509 `nl` -/
def dial_nl : Dialect where
  feature := [py"Functionaliteit"]
  rule := [py"Rule"]
  scenario := [py"Voorbeeld", py"Scenario"]
  scenarioOutline := [py"Abstract Scenario"]
  background := [py"Achtergrond"]
  examples := [py"Voorbeelden"]
  given := [py"* ", py"Gegeven ", py"Stel "]
  when_ := [py"* ", py"Als ", py"Wanneer "]
  then_ := [py"* ", py"Dan "]
  and_ := [py"* ", py"En "]
  but_ := [py"* ", py"Maar "]

/-- packages/gurke/src/gurke/gherkin-languages.json:2554 `no` -/
def dial_no : Dialect where
  feature := [py"Egenskap"]
  rule := [py"Regel"]
  scenario := [py"Eksempel", py"Scenario"]
  scenarioOutline := [py"Scenariomal", py"Abstrakt Scenario"]
  background := [py"Bakgrunn"]
  examples := [py"Eksempler"]
  given := [py"* ", py"Gitt "]
  when_ := [py"* ", py"Når "]
  then_ := [py"* ", py"Så "]
  and_ := [py"* ", py"Og "]
  but_ := [py"* ", py"Men "]

/-- packages/gurke/src/gurke/gherkin-languages.json:2598 `pa` -/
def dial_pa : Dialect where
  feature := [py"ਖਾਸੀਅਤ", py"ਮੁਹਾਂਦਰਾ", py"ਨਕਸ਼ ਨੁਹਾਰ"]
  rule := [py"Rule"]
  scenario := [py"ਉਦਾਹਰਨ", py"ਪਟਕਥਾ"]
  scenarioOutline := [py"ਪਟਕਥਾ ਢਾਂਚਾ", py"ਪਟਕਥਾ ਰੂਪ ਰੇਖਾ"]
  background := [py"ਪਿਛੋਕੜ"]
  examples := [py"ਉਦਾਹਰਨਾਂ"]
  given := [py"* ", py"ਜੇਕਰ ", py"ਜਿਵੇਂ ਕਿ "]
  when_ := [py"* ", py"ਜਦੋਂ "]
  then_ := [py"* ", py"ਤਦ "]
  and_ := [py"* ", py"ਅਤੇ "]
  but_ := [py"* ", py"ਪਰ "]

/-- packages/gurke/src/gurke/gherkin-languages.json:2645 `pl` -/
def dial_pl : Dialect where
  feature := [py"Właściwość", py"Funkcja", py"Aspekt", py"Potrzeba biznesowa"]
  rule := [py"Zasada", py"Reguła"]
  scenario := [py"Przykład", py"Scenariusz"]
  scenarioOutline := [py"Szablon scenariusza"]
  background := [py"Założenia"]
  examples := [py"Przykłady"]
  given := [py"* ", py"Zakładając ", py"Mając ", py"Zakładając, że "]
  when_ := [py"* ", py"Jeżeli ", py"Jeśli ", py"Gdy ", py"Kiedy "]
  then_ := [py"* ", py"Wtedy "]
  and_ := [py"* ", py"Oraz ", py"I "]
  but_ := [py"* ", py"Ale "]

/-- packages/gurke/src/gurke/gherkin-languages.json:2698 `pt` -/
def dial_pt : Dialect where
  feature := [py"Funcionalidade", py"Característica", py"Caracteristica"]
  rule := [py"Regra"]
  scenario := [py"Exemplo", py"Cenário", py"Cenario"]
  scenarioOutline := [py"Esquema do Cenário", py"Esquema do Cenario", py"Delineação do Cenário", py"Delineacao do Cenario"]
  background := [py"Contexto", py"Cenário de Fundo", py"Cenario de Fundo", py"Fundo"]
  examples := [py"Exemplos", py"Cenários", py"Cenarios"]
  given := [py"* ", py"Dado ", py"Dada ", py"Dados ", py"Dadas "]
  when_ := [py"* ", py"Quando "]
  then_ := [py"* ", py"Então ", py"Entao "]
  and_ := [py"* ", py"E "]
  but_ := [py"* ", py"Mas "]

/-- packages/gurke/src/gurke/gherkin-languages.json:2756 `ro` -/
def dial_ro : Dialect where
  feature := [py"Functionalitate", py"Funcționalitate", py"Funcţionalitate"]
  rule := [py"Rule"]
  scenario := [py"Exemplu", py"Scenariu"]
  scenarioOutline := [py"Structura scenariu", py"Structură scenariu"]
  background := [py"Context"]
  examples := [py"Exemple"]
  given := [py"* ", py"Date fiind ", py"Dat fiind ", py"Dată fiind", py"Dati fiind ", py"Dați fiind ", py"Daţi fiind "]
  when_ := [py"* ", py"Cand ", py"Când "]
  then_ := [py"* ", py"Atunci "]
  and_ := [py"* ", py"Si ", py"Și ", py"Şi "]
  but_ := [py"* ", py"Dar "]

/-- packages/gurke/src/gurke/gherkin-languages.json:2810 `ru` -/
def dial_ru : Dialect where
  feature := [py"Функция", py"Функциональность", py"Функционал", py"Свойство", py"Фича"]
  rule := [py"Правило"]
  scenario := [py"Пример", py"Сценарий"]
  scenarioOutline := [py"Структура сценария", py"Шаблон сценария"]
  background := [py"Предыстория", py"Контекст"]
  examples := [py"Примеры"]
  given := [py"* ", py"Допустим ", py"Дано ", py"Пусть "]
  when_ := [py"* ", py"Когда ", py"Если "]
  then_ := [py"* ", py"То ", py"Затем ", py"Тогда "]
  and_ := [py"* ", py"И ", py"К тому же ", py"Также "]
  but_ := [py"* ", py"Но ", py"А ", py"Иначе "]

/-- packages/gurke/src/gurke/gherkin-languages.json:2868 `sk` -/
def dial_sk : Dialect where
  feature := [py"Požiadavka", py"Funkcia", py"Vlastnosť"]
  rule := [py"Rule"]
  scenario := [py"Príklad", py"Scenár"]
  scenarioOutline := [py"Náčrt Scenáru", py"Náčrt Scenára", py"Osnova Scenára"]
  background := [py"Pozadie"]
  examples := [py"Príklady"]
  given := [py"* ", py"Pokiaľ ", py"Za predpokladu "]
  when_ := [py"* ", py"Keď ", py"Ak "]
  then_ := [py"* ", py"Tak ", py"Potom "]
  and_ := [py"* ", py"A ", py"A tiež ", py"A taktiež ", py"A zároveň "]
  but_ := [py"* ", py"Ale "]

/-- packages/gurke/src/gurke/gherkin-languages.json:2921 `sl` -/
def dial_sl : Dialect where
  feature := [py"Funkcionalnost", py"Funkcija", py"Možnosti", py"Moznosti", py"Lastnost", py"Značilnost"]
  rule := [py"Rule"]
  scenario := [py"Primer", py"Scenarij"]
  scenarioOutline := [py"Struktura scenarija", py"Skica", py"Koncept", py"Oris scenarija", py"Osnutek"]
  background := [py"Kontekst", py"Osnova", py"Ozadje"]
  examples := [py"Primeri", py"Scenariji"]
  given := [py"Dano ", py"Podano ", py"Zaradi ", py"Privzeto "]
  when_ := [py"Ko ", py"Ce ", py"Če ", py"Kadar "]
  then_ := [py"Nato ", py"Potem ", py"Takrat "]
  and_ := [py"In ", py"Ter "]
  but_ := [py"Toda ", py"Ampak ", py"Vendar "]

/-- packages/gurke/src/gurke/gherkin-languages.json:2982 `sr-Cyrl` -/
def dial_sr_Cyrl : Dialect where
  feature := [py"Функционалност", py"Могућност", py"Особина"]
  rule := [py"Правило"]
  scenario := [py"Пример", py"Сценарио", py"Пример"]
  scenarioOutline := [py"Структура сценарија", py"Скица", py"Концепт"]
  background := [py"Контекст", py"Основа", py"Позадина"]
  examples := [py"Примери", py"Сценарији"]
  given := [py"* ", py"За дато ", py"За дате ", py"За дати "]
  when_ := [py"* ", py"Када ", py"Кад "]
  then_ := [py"* ", py"Онда "]
  and_ := [py"* ", py"И "]
  but_ := [py"* ", py"Али "]

/-- packages/gurke/src/gurke/gherkin-languages.json:3036 `sr-Latn` -/
def dial_sr_Latn : Dialect where
  feature := [py"Funkcionalnost", py"Mogućnost", py"Mogucnost", py"Osobina"]
  rule := [py"Pravilo"]
  scenario := [py"Scenario", py"Primer"]
  scenarioOutline := [py"Struktura scenarija", py"Skica", py"Koncept"]
  background := [py"Kontekst", py"Osnova", py"Pozadina"]
  examples := [py"Primeri", py"Scenariji"]
  given := [py"* ", py"Za dato ", py"Za date ", py"Za dati "]
  when_ := [py"* ", py"Kada ", py"Kad "]
  then_ := [py"* ", py"Onda "]
  and_ := [py"* ", py"I "]
  but_ := [py"* ", py"Ali "]

/-- packages/gurke/src/gurke/gherkin-languages.json:3090 `sv` -/
def dial_sv : Dialect where
  feature := [py"Egenskap"]
  rule := [py"Regel"]
  scenario := [py"Scenario"]
  scenarioOutline := [py"Abstrakt Scenario", py"Scenariomall"]
  background := [py"Bakgrund"]
  examples := [py"Exempel"]
  given := [py"* ", py"Givet "]
  when_ := [py"* ", py"När "]
  then_ := [py"* ", py"Så "]
  and_ := [py"* ", py"Och "]
  but_ := [py"* ", py"Men "]

/-- packages/gurke/src/gurke/gherkin-languages.json:3133 `ta` -/
def dial_ta : Dialect where
  feature := [py"அம்சம்", py"வணிக தேவை", py"திறன்"]
  rule := [py"Rule"]
  scenario := [py"உதாரணமாக", py"காட்சி"]
  scenarioOutline := [py"காட்சி சுருக்கம்", py"காட்சி வார்ப்புரு"]
  background := [py"பின்னணி"]
  examples := [py"எடுத்துக்காட்டுகள்", py"காட்சிகள்", py"நிலைமைகளில்"]
  given := [py"* ", py"கொடுக்கப்பட்ட "]
  when_ := [py"* ", py"எப்போது "]
  then_ := [py"* ", py"அப்பொழுது "]
  and_ := [py"* ", py"மேலும்  ", py"மற்றும் "]
  but_ := [py"* ", py"ஆனால்  "]

/-- packages/gurke/src/gurke/gherkin-languages.json:3182 `th` -/
def dial_th : Dialect where
  feature := [py"โครงหลัก", py"ความต้องการทางธุรกิจ", py"ความสามารถ"]
  rule := [py"Rule"]
  scenario := [py"เหตุการณ์"]
  scenarioOutline := [py"สรุปเหตุการณ์", py"โครงสร้างของเหตุการณ์"]
  background := [py"แนวคิด"]
  examples := [py"ชุดของตัวอย่าง", py"ชุดของเหตุการณ์"]
  given := [py"* ", py"กำหนดให้ "]
  when_ := [py"* ", py"เมื่อ "]
  then_ := [py"* ", py"ดังนั้น "]
  and_ := [py"* ", py"และ "]
  but_ := [py"* ", py"แต่ "]

/-- packages/gurke/src/gurke/gherkin-languages.json:3228 `te` -/
def dial_te : Dialect where
  feature := [py"గుణము"]
  rule := [py"Rule"]
  scenario := [py"ఉదాహరణ", py"సన్నివేశం"]
  scenarioOutline := [py"కథనం"]
  background := [py"నేపథ్యం"]
  examples := [py"ఉదాహరణలు"]
  given := [py"* ", py"చెప్పబడినది "]
  when_ := [py"* ", py"ఈ పరిస్థితిలో "]
  then_ := [py"* ", py"అప్పుడు "]
  and_ := [py"* ", py"మరియు "]
  but_ := [py"* ", py"కాని "]

/-- packages/gurke/src/gurke/gherkin-languages.json:3271 `tlh` -/
def dial_tlh : Dialect where
  feature := [py"Qap", py"Qu'meH 'ut", py"perbogh", py"poQbogh malja'", py"laH"]
  rule := [py"Rule"]
  scenario := [py"lut"]
  scenarioOutline := [py"lut chovnatlh"]
  background := [py"mo'"]
  examples := [py"ghantoH", py"lutmey"]
  given := [py"* ", py"ghu' noblu' ", py"DaH ghu' bejlu' "]
  when_ := [py"* ", py"qaSDI' "]
  then_ := [py"* ", py"vaj "]
  and_ := [py"* ", py"'ej ", py"latlh "]
  but_ := [py"* ", py"'ach ", py"'a "]

/-- packages/gurke/src/gurke/gherkin-languages.json:3321 `tr` -/
def dial_tr : Dialect where
  feature := [py"Özellik"]
  rule := [py"Kural"]
  scenario := [py"Örnek", py"Senaryo"]
  scenarioOutline := [py"Senaryo taslağı"]
  background := [py"Geçmiş"]
  examples := [py"Örnekler"]
  given := [py"* ", py"Diyelim ki "]
  when_ := [py"* ", py"Eğer ki "]
  then_ := [py"* ", py"O zaman "]
  and_ := [py"* ", py"Ve "]
  but_ := [py"* ", py"Fakat ", py"Ama "]

/-- packages/gurke/src/gurke/gherkin-languages.json:3365 `tt` -/
def dial_tt : Dialect where
  feature := [py"Мөмкинлек", py"Үзенчәлеклелек"]
  rule := [py"Rule"]
  scenario := [py"Сценарий"]
  scenarioOutline := [py"Сценарийның төзелеше"]
  background := [py"Кереш"]
  examples := [py"Үрнәкләр", py"Мисаллар"]
  given := [py"* ", py"Әйтик "]
  when_ := [py"* ", py"Әгәр "]
  then_ := [py"* ", py"Нәтиҗәдә "]
  and_ := [py"* ", py"Һәм ", py"Вә "]
  but_ := [py"* ", py"Ләкин ", py"Әмма "]

/-- packages/gurke/src/gurke/gherkin-languages.json:3411 `uk` -/
def dial_uk : Dialect where
  feature := [py"Функціонал"]
  rule := [py"Rule"]
  scenario := [py"Приклад", py"Сценарій"]
  scenarioOutline := [py"Структура сценарію"]
  background := [py"Передумова"]
  examples := [py"Приклади"]
  given := [py"* ", py"Припустимо ", py"Припустимо, що ", py"Нехай ", py"Дано "]
  when_ := [py"* ", py"Якщо ", py"Коли "]
  then_ := [py"* ", py"То ", py"Тоді "]
  and_ := [py"* ", py"І ", py"А також ", py"Та "]
  but_ := [py"* ", py"Але "]

/-- packages/gurke/src/gurke/gherkin-languages.json:3461 `ur` -/
def dial_ur : Dialect where
  feature := [py"صلاحیت", py"کاروبار کی ضرورت", py"خصوصیت"]
  rule := [py"Rule"]
  scenario := [py"منظرنامہ"]
  scenarioOutline := [py"منظر نامے کا خاکہ"]
  background := [py"پس منظر"]
  examples := [py"مثالیں"]
  given := [py"* ", py"اگر ", py"بالفرض ", py"فرض کیا "]
  when_ := [py"* ", py"جب "]
  then_ := [py"* ", py"پھر ", py"تب "]
  and_ := [py"* ", py"اور "]
  but_ := [py"* ", py"لیکن "]

/-- packages/gurke/src/gurke/gherkin-languages.json:3508 `uz` -/
def dial_uz : Dialect where
  feature := [py"Функционал"]
  rule := [py"Rule"]
  scenario := [py"Сценарий"]
  scenarioOutline := [py"Сценарий структураси"]
  background := [py"Тарих"]
  examples := [py"Мисоллар"]
  given := [py"* ", py"Belgilangan "]
  when_ := [py"* ", py"Агар "]
  then_ := [py"* ", py"Унда "]
  and_ := [py"* ", py"Ва "]
  but_ := [py"* ", py"Лекин ", py"Бирок ", py"Аммо "]

/-- packages/gurke/src/gurke/gherkin-languages.json:3552 `vi` -/
def dial_vi : Dialect where
  feature := [py"Tính năng"]
  rule := [py"Rule"]
  scenario := [py"Tình huống", py"Kịch bản"]
  scenarioOutline := [py"Khung tình huống", py"Khung kịch bản"]
  background := [py"Bối cảnh"]
  examples := [py"Dữ liệu"]
  given := [py"* ", py"Biết ", py"Cho "]
  when_ := [py"* ", py"Khi "]
  then_ := [py"* ", py"Thì "]
  and_ := [py"* ", py"Và "]
  but_ := [py"* ", py"Nhưng "]

/-- packages/gurke/src/gurke/gherkin-languages.json:3597 `zh-CN` -/
def dial_zh_CN : Dialect where
  feature := [py"功能"]
  rule := [py"Rule", py"规则"]
  scenario := [py"场景", py"剧本"]
  scenarioOutline := [py"场景大纲", py"剧本大纲"]
  background := [py"背景"]
  examples := [py"例子"]
  given := [py"* ", py"假如", py"假设", py"假定"]
  when_ := [py"* ", py"当"]
  then_ := [py"* ", py"那么"]
  and_ := [py"* ", py"而且", py"并且", py"同时"]
  but_ := [py"* ", py"但是"]

/-- packages/gurke/src/gurke/gherkin-languages.json:3646 `zh-TW` -/
def dial_zh_TW : Dialect where
  feature := [py"功能"]
  rule := [py"Rule"]
  scenario := [py"場景", py"劇本"]
  scenarioOutline := [py"場景大綱", py"劇本大綱"]
  background := [py"背景"]
  examples := [py"例子"]
  given := [py"* ", py"假如", py"假設", py"假定"]
  when_ := [py"* ", py"當"]
  then_ := [py"* ", py"那麼"]
  and_ := [py"* ", py"而且", py"並且", py"同時"]
  but_ := [py"* ", py"但是"]

/-- packages/gurke/src/gurke/gherkin-languages.json:3694 `mr` -/
def dial_mr : Dialect where
  feature := [py"वैशिष्ट्य", py"सुविधा"]
  rule := [py"नियम"]
  scenario := [py"परिदृश्य"]
  scenarioOutline := [py"परिदृश्य रूपरेखा"]
  background := [py"पार्श्वभूमी"]
  examples := [py"उदाहरण"]
  given := [py"* ", py"जर", py"दिलेल्या प्रमाणे "]
  when_ := [py"* ", py"जेव्हा "]
  then_ := [py"* ", py"मग ", py"तेव्हा "]
  and_ := [py"* ", py"आणि ", py"तसेच "]
  but_ := [py"* ", py"पण ", py"परंतु "]

/-- packages/gurke/src/gurke/gherkin-languages.json:3741 `amh` -/
def dial_amh : Dialect where
  feature := [py"ስራ", py"የተፈለገው ስራ", py"የሚፈለገው ድርጊት"]
  rule := [py"ህግ"]
  scenario := [py"ምሳሌ", py"ሁናቴ"]
  scenarioOutline := [py"ሁናቴ ዝርዝር", py"ሁናቴ አብነት"]
  background := [py"ቅድመ ሁኔታ", py"መነሻ", py"መነሻ ሀሳብ"]
  examples := [py"ምሳሌዎች", py"ሁናቴዎች"]
  given := [py"* ", py"የተሰጠ "]
  when_ := [py"* ", py"መቼ "]
  then_ := [py"* ", py"ከዚያ "]
  and_ := [py"* ", py"እና "]
  but_ := [py"* ", py"ግን "]

/-- packages/gurke/src/gurke/dialect.py:10-11 `DIALECTS` (the whole of gherkin-languages.json, in file order). -/
def dialects : List (Str × Dialect) := [
  (py"af", dial_af),
  (py"am", dial_am),
  (py"an", dial_an),
  (py"ar", dial_ar),
  (py"ast", dial_ast),
  (py"az", dial_az),
  (py"be", dial_be),
  (py"bg", dial_bg),
  (py"bm", dial_bm),
  (py"bs", dial_bs),
  (py"ca", dial_ca),
  (py"cs", dial_cs),
  (py"cy-GB", dial_cy_GB),
  (py"da", dial_da),
  (py"de", dial_de),
  (py"el", dial_el),
  (py"em", dial_em),
  (py"en", dial_en),
  (py"en-Scouse", dial_en_Scouse),
  (py"en-au", dial_en_au),
  (py"en-lol", dial_en_lol),
  (py"en-old", dial_en_old),
  (py"en-pirate", dial_en_pirate),
  (py"en-tx", dial_en_tx),
  (py"eo", dial_eo),
  (py"es", dial_es),
  (py"et", dial_et),
  (py"fa", dial_fa),
  (py"fi", dial_fi),
  (py"fr", dial_fr),
  (py"ga", dial_ga),
  (py"gj", dial_gj),
  (py"gl", dial_gl),
  (py"he", dial_he),
  (py"hi", dial_hi),
  (py"hr", dial_hr),
  (py"ht", dial_ht),
  (py"hu", dial_hu),
  (py"id", dial_id),
  (py"is", dial_is),
  (py"it", dial_it),
  (py"ja", dial_ja),
  (py"jv", dial_jv),
  (py"ka", dial_ka),
  (py"kn", dial_kn),
  (py"ko", dial_ko),
  (py"lt", dial_lt),
  (py"lu", dial_lu),
  (py"lv", dial_lv),
  (py"mk-Cyrl", dial_mk_Cyrl),
  (py"mk-Latn", dial_mk_Latn),
  (py"mn", dial_mn),
  (py"ne", dial_ne),
  (py"nl", dial_nl),
  (py"no", dial_no),
  (py"pa", dial_pa),
  (py"pl", dial_pl),
  (py"pt", dial_pt),
  (py"ro", dial_ro),
  (py"ru", dial_ru),
  (py"sk", dial_sk),
  (py"sl", dial_sl),
  (py"sr-Cyrl", dial_sr_Cyrl),
  (py"sr-Latn", dial_sr_Latn),
  (py"sv", dial_sv),
  (py"ta", dial_ta),
  (py"th", dial_th),
  (py"te", dial_te),
  (py"tlh", dial_tlh),
  (py"tr", dial_tr),
  (py"tt", dial_tt),
  (py"uk", dial_uk),
  (py"ur", dial_ur),
  (py"uz", dial_uz),
  (py"vi", dial_vi),
  (py"zh-CN", dial_zh_CN),
  (py"zh-TW", dial_zh_TW),
  (py"mr", dial_mr),
  (py"amh", dial_amh)]

end Gherkin
